import Verif.Model.Page
import Verif.Spec.HtmlText
import Verif.Props.Browser
/-!
Properties C81 and C82: what the demo page shows for the text typed into it.
-/

namespace Aql

open Spec

variable (E : Env) (short : Bool)

/-! ### C81 -/

theorem aqlUpdate_eq {s : Str} (hs : s ≠ []) {t : Option Node} {ms : List JsMsg}
    (h : pWrap E (utf8 s) = some (.ok (t, ms))) :
    aqlUpdate E short s = some (.ok (
      if ms = [] then ⟨(t.map (treeText short)).getD [], [], false, []⟩
      else ⟨[], ms.map fun m => newMsg m.type m.msg, true, ms.map fun m => (m.type, m.start, m.stop)⟩)) := by
  unfold aqlUpdate
  rw [if_neg hs]
  unfold utf8 at h
  rw [h]
  simp only [Option.map_some, Option.some.injEq]
  split
  · cases t <;> rfl
  · rfl

theorem pWrap_query {s : Str} {n : Node} {ms : List JsMsg} (h : pWrap E (utf8 s) = some (.ok (some n, ms))) :
    Query E s n := by
  obtain ⟨s', h1, h2, -⟩ := C65_messages_mark_pieces E (utf8 s) n ms h
  have := congrArg decode h1
  rw [decode_utf8, decode_utf8] at this
  rw [map_ok_inj this]
  exact h2

/-- **C81.** Whatever is typed, the page shows either the tree of the text, and then the text is a query
and nothing else is shown, or messages, each with one highlighted span. -/
theorem C81_tree_or_messages (s : Str) (hs : s ≠ []) : ∃ v, aqlUpdate E short s = some (.ok v) ∧
    ((∃ n, Query E s n ∧ v = ⟨treeText short n, [], false, []⟩) ∨
     (v.output = [] ∧ v.visible = true ∧ v.messages ≠ [] ∧ v.highlights.length = v.messages.length)) := by
  obtain ⟨⟨t, ms⟩, h, hte⟩ := C65_tree_or_error E (utf8 s)
  rw [aqlUpdate_eq E short hs h]
  refine ⟨_, rfl, ?_⟩
  by_cases hm : ms = []
  · subst hm
    rcases t with _ | n
    · obtain ⟨m, h1, -⟩ := hte
      cases h1
    · exact .inl ⟨n, pWrap_query E h, by simp⟩
  · rw [if_neg hm]
    exact .inr ⟨rfl, rfl, by simpa using hm, by simp⟩

/-- **C81.** A text that is no query gets exactly one message, an error; and wherever an error is shown,
it is the only message. -/
theorem C81_errors (s : Str) (hs : s ≠ []) (v : PageView) (h : aqlUpdate E short s = some (.ok v)) :
    ((¬ ∃ n, Query E s n) → ∃ x ∈ v.highlights, x.1 = .error) ∧
    ((∃ x ∈ v.highlights, x.1 = .error) → v.messages.length = 1 ∧ v.highlights.length = 1 ∧ v.output = []) := by
  obtain ⟨⟨t, ms⟩, hp, hte⟩ := C65_tree_or_error E (utf8 s)
  rw [aqlUpdate_eq E short hs hp] at h
  simp only [Option.some.injEq, Except.ok.injEq] at h
  rcases t with _ | n
  · obtain ⟨m, rfl, hm⟩ := hte
    rw [if_neg (by simp)] at h
    subst h
    exact ⟨fun _ => ⟨_, List.mem_singleton.2 rfl, hm⟩, fun _ => ⟨rfl, rfl, rfl⟩⟩
  · refine ⟨fun hn => absurd ⟨n, pWrap_query E hp⟩ hn, ?_⟩
    rintro ⟨x, hx, he⟩
    subst h
    split at hx
    · simp at hx
    · obtain ⟨m, hm, rfl⟩ := List.mem_map.1 hx
      exact absurd he (hte m hm)

/-- **C81, exactly.** The page shows a tree iff the text is accepted and there is no message about it. -/
theorem C81_tree_exact (s : Str) (hs : s ≠ []) (v : PageView) (h : aqlUpdate E short s = some (.ok v)) :
    v.output ≠ [] ↔ ∃ n, pWrap E (utf8 s) = some (.ok (some n, [])) := by
  obtain ⟨⟨t, ms⟩, hp, hte⟩ := C65_tree_or_error E (utf8 s)
  rw [aqlUpdate_eq E short hs hp] at h
  simp only [Option.some.injEq, Except.ok.injEq] at h
  rw [hp]
  by_cases hm : ms = []
  · subst hm
    rcases t with _ | n
    · obtain ⟨m, h1, -⟩ := hte
      cases h1
    · subst h
      refine ⟨fun _ => ⟨n, rfl⟩, fun _ => ?_⟩
      simp only [if_true, Option.map_some, Option.getD_some]
      unfold treeText
      cases n <;> simp [Node.json, JOut.text]
  · rw [if_neg hm] at h
    subst h
    simp [hm]

/-- **C81.** The empty text is not parsed: no message, no highlight. -/
theorem C81_empty : aqlUpdate E short [] = some (.ok ⟨[' '], [], false, []⟩) := rfl

/-- **C81.** Highlighted spans are not empty and lie inside the bytes of the text, except for strings and
patterns that do not end. -/
theorem C81_spans_inside (hre : PatternsParse E) (s : Str) (v : PageView)
    (h : aqlUpdate E short s = some (.ok v)) (i : Nat) (x : MsgType × Int × Int) (hx : v.highlights[i]? = some x)
    (hu : ∀ msg, Unterminated msg → v.messages[i]? ≠ some (newMsg x.1 msg)) :
    0 ≤ x.2.1 ∧ x.2.1 < x.2.2 ∧ x.2.2 ≤ (utf8 s).length := by
  by_cases hs : s = []
  · subst hs
    rw [C81_empty] at h
    cases h
    simp at hx
  obtain ⟨⟨t, ms⟩, hp, -⟩ := C65_tree_or_error E (utf8 s)
  rw [aqlUpdate_eq E short hs hp] at h
  simp only [Option.some.injEq, Except.ok.injEq] at h
  subst h
  split at hx
  · simp at hx
  · rename_i hne
    rw [if_neg hne] at hu
    simp only [List.getElem?_map, Option.map_eq_some_iff] at hx
    obtain ⟨m, hm, rfl⟩ := hx
    have hq : utf8 s ≠ [] := by
      intro h0
      have := congrArg decode h0
      rw [decode_utf8] at this
      cases s with
      | nil => exact hs rfl
      | cons c s => simp [decode] at this
    refine C65_spans_inside_partial E hre (utf8 s) hq t ms hp m (List.mem_of_getElem? hm) ?_
    intro hun
    refine hu m.msg hun ?_
    simp [hm]

/-- Output and highlights for a text. -/
def pageShows (E : Env) (s : Str) : Option (Str × List (MsgType × Int × Int)) :=
  match aqlUpdate E false s with
  | some (.ok v) => some (v.output, v.highlights)
  | _ => none

-- a text without messages, and one that is no query
example : pageShows testEnv "a:exists".toList = some (treeText false (.expr .EXS [['a']] [] ⟨1, 1, 0, 8⟩), []) ∧
    pageShows testEnv "a:1 AND".toList = some ([], [(.error, 6, 7)]) := by decide +kernel

/-- **C81 (refuted).** The tree of an accepted query is not always shown: a warning hides it. -/
theorem C81_tree_refuted : pageShows testEnv "a:2020-01-02".toList = some ([], [(.warning, 2, 12)]) ∧
    (pWrap testEnv (utf8 "a:2020-01-02".toList)).map (fun r => r.toOption.map (·.1.isSome)) = some (some true) := by
  decide +kernel

/-! ### C82 -/

theorem readHtml_text (c : Char) (s : Str) : readHtml .text (c :: s) =
    if c = '<' && s.head?.any opener then readHtml .tagOpen s
    else if c = '&' && s.head?.any refStart then none
    else if c.toNat = 0 || c = '\r' then none
    else (readHtml .text s).map (c :: ·) := by
  rw [readHtml]

theorem readHtml_step {st : HState} (h : st ≠ .text) (c : Char) (s : Str) :
    readHtml st (c :: s) = readHtml (st.step c) s := by
  cases st <;> first | exact absurd rfl h | (rw [readHtml]; simp)

/-- The closing tag shows nothing in any state. -/
theorem readHtml_end (st : HState) : readHtml st "</div>".toList = some [] := by
  by_cases h : ∃ d, st = .comment d
  · obtain ⟨d, rfl⟩ := h
    show readHtml (.comment d) ['<', '/', 'd', 'i', 'v', '>'] = some []
    iterate 6 rw [readHtml_step (by simp [HState.step])]
    simp [readHtml]
  · cases st <;> first | exact absurd ⟨_, rfl⟩ h | decide

/-- No character is shown that was not written. -/
theorem readHtml_le : ∀ (s : Str) (st : HState) (t : Str),
    readHtml st (s ++ "</div>".toList) = some t → t.length ≤ s.length
  | [], st, t, h => by
    rw [List.nil_append, readHtml_end] at h
    cases h; simp
  | c :: s, st, t, h => by
    by_cases hs : st = .text
    · subst hs
      rw [List.cons_append, readHtml_text] at h
      split at h
      · have := readHtml_le s _ t h
        simp only [List.length_cons]; omega
      · split at h
        · cases h
        · split at h
          · cases h
          · obtain ⟨u, hu, rfl⟩ := Option.map_eq_some_iff.1 h
            have := readHtml_le s _ u hu
            simp only [List.length_cons]; omega
    · rw [List.cons_append, readHtml_step hs] at h
      have := readHtml_le s _ t h
      simp only [List.length_cons]; omega

theorem verbatim_cons {c : Char} {s : Str} : Verbatim (c :: s) ↔
    (c.toNat ≠ 0 ∧ c ≠ '\r') ∧ (∀ y ∈ s.head?, ¬ (c = '<' ∧ opener y) ∧ ¬ (c = '&' ∧ refStart y)) ∧ Verbatim s := by
  constructor
  · rintro ⟨h1, h2⟩
    refine ⟨h1 c (by simp), ?_, fun x hx => h1 x (by simp [hx]), ?_⟩
    · intro y hy
      cases s with
      | nil => simp at hy
      | cons z s => simp at hy; subst hy; exact h2 [] c z s rfl
    · intro pre x y post e
      exact h2 (c :: pre) x y post (by simp [e])
  · rintro ⟨h1, h2, h3, h4⟩
    refine ⟨?_, ?_⟩
    · intro x hx
      rcases List.mem_cons.1 hx with rfl | hx
      · exact h1
      · exact h3 x hx
    · intro pre x y post e
      cases pre with
      | nil => simp at e; obtain ⟨rfl, rfl⟩ := e; exact h2 y (by simp)
      | cons z pre => simp at e; exact h4 pre x y post e.2

theorem readHtml_verbatim : ∀ s : Str, readHtml .text (s ++ "</div>".toList) = some s ↔ Verbatim s
  | [] => by
    rw [List.nil_append, readHtml_end]
    simp [Verbatim]
  | c :: s => by
    have ih := readHtml_verbatim s
    have hhead : ∀ p : Char → Bool, p '<' = false →
        ((s ++ "</div>".toList).head?.any p = true ↔ ∃ y ∈ s.head?, p y = true) := by
      intro p hp
      cases s with
      | nil => simp [hp]
      | cons y s => simp
    rw [List.cons_append, readHtml_text, verbatim_cons, ← ih]
    by_cases h1 : (decide (c = '<') && (s ++ "</div>".toList).head?.any opener) = true
    · rw [if_pos h1]
      simp only [Bool.and_eq_true, decide_eq_true_eq] at h1
      obtain ⟨rfl, h1⟩ := h1
      obtain ⟨y, hy, ho⟩ := (hhead opener (by decide)).1 h1
      constructor
      · intro h
        have := readHtml_le s _ _ h
        simp only [List.length_cons] at this; omega
      · intro h
        exact absurd ⟨rfl, ho⟩ (h.2.1 y hy).1
    · rw [if_neg h1]
      by_cases h2 : (decide (c = '&') && (s ++ "</div>".toList).head?.any refStart) = true
      · rw [if_pos h2]
        simp only [Bool.and_eq_true, decide_eq_true_eq] at h2
        obtain ⟨rfl, h2⟩ := h2
        obtain ⟨y, hy, ho⟩ := (hhead refStart (by decide)).1 h2
        constructor
        · intro h; cases h
        · intro h
          exact absurd ⟨rfl, ho⟩ (h.2.1 y hy).2
      · rw [if_neg h2]
        by_cases h3 : (decide (c.toNat = 0) || decide (c = '\r')) = true
        · rw [if_pos h3]
          simp only [Bool.or_eq_true, decide_eq_true_eq] at h3
          constructor
          · intro h; cases h
          · intro h
            rcases h3 with h3 | h3
            · exact absurd h3 h.1.1
            · exact absurd h3 h.1.2
        · rw [if_neg h3]
          simp only [Bool.or_eq_true, decide_eq_true_eq, not_or] at h3
          constructor
          · intro h
            obtain ⟨u, hu, hc⟩ := Option.map_eq_some_iff.1 h
            simp only [List.cons.injEq, true_and] at hc
            subst hc
            refine ⟨h3, ?_, hu⟩
            intro y hy
            constructor
            · rintro ⟨rfl, ho⟩
              exact h1 (by simp only [decide_true, Bool.true_and]; exact (hhead opener (by decide)).2 ⟨y, hy, ho⟩)
            · rintro ⟨rfl, ho⟩
              exact h2 (by simp only [decide_true, Bool.true_and]; exact (hhead refStart (by decide)).2 ⟨y, hy, ho⟩)
          · intro h
            rw [h.2.2]; rfl

/-- The state after a text. -/
def htmlState : HState → Str → HState
  | st, [] => st
  | .text, c :: s => if c = '<' && s.head?.any opener then htmlState .tagOpen s else htmlState .text s
  | st, c :: s => htmlState (st.step c) s

theorem htmlState_text (c : Char) (s : Str) : htmlState .text (c :: s) =
    if c = '<' && s.head?.any opener then htmlState .tagOpen s else htmlState .text s := by
  rw [htmlState]

theorem htmlState_step {st : HState} (h : st ≠ .text) (c : Char) (s : Str) :
    htmlState st (c :: s) = htmlState (st.step c) s := by
  cases st <;> first | exact absurd rfl h | (rw [htmlState]; simp)

/-- Reading goes on where it was interrupted at a blank. -/
theorem readHtml_append (r : Str) : ∀ (p : Str) (st : HState),
    readHtml st (p ++ [' '] ++ r) = (readHtml st (p ++ [' '])).bind fun a =>
      (readHtml (htmlState st (p ++ [' '])) r).map (a ++ ·)
  | [], st => by
    have hnil : ∀ st, readHtml st [] = some [] := by intro st; cases st <;> rw [readHtml]
    by_cases hs : st = .text
    · subst hs
      simp only [List.nil_append, List.singleton_append]
      rw [readHtml_text, readHtml_text, htmlState_text, if_neg (by simp), if_neg (by simp), if_neg (by decide),
        if_neg (by simp), if_neg (by simp), if_neg (by decide), hnil, if_neg (by simp), htmlState]
      simp
    · simp only [List.nil_append, List.singleton_append]
      rw [readHtml_step hs, readHtml_step hs, htmlState_step hs, htmlState, hnil]
      simp
  | c :: p, st => by
    by_cases hs : st = .text
    · subst hs
      have e : ∀ f : Char → Bool, (p ++ [' '] ++ r).head?.any f = (p ++ [' ']).head?.any f := by
        intro f; cases p <;> simp
      simp only [List.cons_append]
      rw [readHtml_text, readHtml_text, htmlState_text, e, e, readHtml_append r p .tagOpen, readHtml_append r p .text]
      split
      · rfl
      · split
        · rfl
        · split
          · rfl
          · cases readHtml .text (p ++ [' ']) <;> simp [Option.map_map, Function.comp_def]
    · simp only [List.cons_append]
      rw [readHtml_step hs, readHtml_step hs, htmlState_step hs, readHtml_append r p _]

theorem readHtml_newMsg (t : MsgType) (c : Str) :
    readHtml .text (newMsg t c) =
      (readHtml .text (c ++ "</div>".toList)).map (msgTypeName t ++ ' ' :: ·) := by
  unfold newMsg
  rw [List.append_assoc _ c]
  have hsplit : "</alerttitle> ".toList = "</alerttitle>".toList ++ [' '] := by decide
  rw [hsplit, ← List.append_assoc _ "</alerttitle>".toList, readHtml_append]
  have h1 : readHtml .text ("<div class=\"alert alert-".toList ++ msgTypeName t ++
      " alert-white rounded\"><div class=\"icon\"><i class=\"fa fa-".toList ++ msgIcon t ++
      "\"></i></div><alerttitle>".toList ++ msgTypeName t ++ "</alerttitle>".toList ++ [' ']) =
        some (msgTypeName t ++ [' ']) := by
    cases t <;> decide +kernel
  have h2 : htmlState .text ("<div class=\"alert alert-".toList ++ msgTypeName t ++
      " alert-white rounded\"><div class=\"icon\"><i class=\"fa fa-".toList ++ msgIcon t ++
      "\"></i></div><alerttitle>".toList ++ msgTypeName t ++ "</alerttitle>".toList ++ [' ']) = .text := by
    cases t <;> decide +kernel
  rw [h1, h2]
  simp

/-- **C82, exactly.** A message is shown on the page as written, after its kind, iff it contains no `<` that begins markup,
no `&` that begins a character reference, and neither NUL nor carriage returns. -/
theorem C82_shown_exact (t : MsgType) (c : Str) :
    readHtml .text (newMsg t c) = some ((match t with
      | .hint => "hint".toList
      | .warning => "warning".toList
      | .error => "error".toList) ++ ' ' :: c) ↔ Verbatim c := by
  change _ = some (msgTypeName t ++ _) ↔ _
  rw [readHtml_newMsg, ← readHtml_verbatim]
  constructor
  · intro h
    obtain ⟨u, hu, hc⟩ := Option.map_eq_some_iff.1 h
    have := List.append_cancel_left hc
    simp only [List.cons.injEq, true_and] at this
    rw [hu, this]
  · intro h
    rw [h]; rfl

/-- The texts shown for the messages about a query. -/
def pageTexts (E : Env) (s : Str) : Option (List (Option Str)) :=
  match aqlUpdate E false s with
  | some (.ok v) => some (v.messages.map (readHtml .text))
  | _ => none

-- a hint about a pattern and an error about an argument are shown as written
example : Verbatim "duplicate argument [\"a < b & c\"] (value 2/2)".toList := by
  rw [← C82_shown_exact .error]; decide +kernel

example : pageTexts testEnv "a:(\"a < b\", \"a < b\")".toList =
    some [some "error duplicate argument [\"a < b\"] (value 2/2)".toList] := by decide +kernel

/-- **C82 (refuted).** The warning about `~` with a pattern is cut off in its middle for every query it is
about: it contains `<regular expression/`. -/
theorem C82_warning_refuted :
    pageTexts testEnv "a:~/x/".toList = some [some ("warning Similarity comparison is no longer necessary for " ++
      "regular expressions and will eventually be removed. Please use the normal comparison operator - field:/").toList] := by
  decide +kernel

/-- **C82 (refuted).** Markup in the query becomes markup of the page: the argument is not shown. -/
theorem C82_markup_refuted :
    pageTexts testEnv "a:(\"<img src=x onerror='f()'>\", \"<img src=x onerror='f()'>\")".toList =
      some [some "error duplicate argument [\"\"] (value 2/2)".toList] := by
  decide +kernel

/-! ### C65, exactly -/

theorem utf8Size_units (c : Char) : ((units c).length = c.utf8Size ↔ c.toNat < 128) ∧
    (units c).length ≤ c.utf8Size ∧ ((units c).length = 1 ↔ c.toNat < 0x10000) ∧ 1 ≤ (units c).length := by
  have h1 : (units c).length = if c.toNat < 0x10000 then 1 else 2 := by
    unfold units; split <;> rfl
  have h2 : c.utf8Size = if c.toNat ≤ 0x7F then 1 else if c.toNat ≤ 0x7FF then 2 else
      if c.toNat ≤ 0xFFFF then 3 else 4 := by
    unfold Char.utf8Size
    rfl
  rw [h1, h2]
  split <;> split <;> try split
  all_goals try split
  all_goals omega

theorem utf16_length (s : Str) : (utf16 s).length = (s.map fun c => (units c).length).sum := by
  unfold utf16
  rw [List.length_flatMap]

theorem utf16_bytes (s : Str) : (utf16 s).length ≤ bytesOf s ∧ ((utf16 s).length = bytesOf s ↔ AsciiText s) := by
  induction s with
  | nil => exact ⟨by simp [utf16], by simp [utf16, bytesOf, AsciiText]⟩
  | cons c s ih =>
    obtain ⟨h1, h2⟩ := ih
    obtain ⟨h3, h4, -⟩ := utf8Size_units c
    have e1 : (utf16 (c :: s)).length = (units c).length + (utf16 s).length := by simp [utf16]
    have e2 : bytesOf (c :: s) = c.utf8Size + bytesOf s := by simp [bytesOf]
    have e3 : AsciiText (c :: s) ↔ c.toNat < 128 ∧ AsciiText s := by simp [AsciiText]
    rw [e1, e2, e3, ← h2, ← h3]
    omega

theorem utf16_chars (s : Str) : s.length ≤ (utf16 s).length ∧
    ((utf16 s).length = s.length ↔ ∀ c ∈ s, c.toNat < 0x10000) := by
  induction s with
  | nil => simp [utf16]
  | cons c s ih =>
    obtain ⟨h1, h2⟩ := ih
    obtain ⟨-, -, h3, h4⟩ := utf8Size_units c
    have e1 : (utf16 (c :: s)).length = (units c).length + (utf16 s).length := by simp [utf16]
    rw [e1, List.forall_mem_cons, ← h2, ← h3, List.length_cons]
    omega

/-- **C65, exactly.** A mark on the piece `u` behind `q` begins where the page needs it iff `q` is ASCII,
and has the right length iff `u` has no character beyond the basic plane. Under both conditions the
highlighted text is the piece. -/
theorem C65_highlight_exact (s q u rest : Str) (m : JsMsg) (hs : s = q ++ (u ++ rest))
    (h1 : m.start = bytesOf q) (h2 : m.stop = bytesOf q + u.length) :
    (m.start = ((utf16 q).length : Nat) ↔ AsciiText q) ∧
    (m.stop - m.start = ((utf16 u).length : Nat) ↔ ∀ c ∈ u, c.toNat < 0x10000) ∧
    (AsciiText q → (∀ c ∈ u, c.toNat < 0x10000) → jsSlice (utf16 s) m.start m.stop = utf16 u) := by
  obtain ⟨h3, h4⟩ := utf16_bytes q
  obtain ⟨h5, h6⟩ := utf16_chars u
  refine ⟨?_, ?_, ?_⟩
  · rw [h1, ← h4]; omega
  · rw [h1, h2, ← h6]; omega
  · intro hq hu
    rw [← h4] at hq
    rw [← h6] at hu
    have e : utf16 s = utf16 q ++ (utf16 u ++ utf16 rest) := by simp [hs, utf16]
    rw [jsSlice, e, List.drop_left' (by omega)]
    have : m.stop.toNat - m.start.toNat = (utf16 u).length := by omega
    rw [this, List.take_left' rfl]

-- text behind the piece does not matter, nor do characters of the basic plane in it
example : jsSlice (utf16 "a:\"é\"😀".toList) 2 5 = utf16 "\"é\"".toList := by decide

end Aql
