import Verif.Props.Advice
import Verif.Props.Exact
/-!
C129: what becomes of a query if the hint to replace alternatives by several strings is followed.
-/

namespace Aql

open Spec

variable {E : Env}

/-- The word, as a regular expression. -/
def wordRx (w : Str) : Rx := .leaf opLiteral (fun _ m _ => m = w) (by unfold LeafLabel; decide)

theorem found_wordRx {w t : Str} : FoundIn (wordRx w) t ↔ w <:+: t := by
  constructor
  · rintro ⟨b, m, a, rfl, h⟩
    cases h with
    | leaf h => subst h; exact ⟨b, a, rfl⟩
  · rintro ⟨b, a, rfl⟩
    exact ⟨b, w, a, rfl, .leaf rfl⟩

theorem words_usual (w w' : Str) (ws : List Str) :
    ¬ Unusual (.mk opAlternate (Rx.shapes ((w :: w' :: ws).map wordRx))) := by
  intro h
  rw [shapes_map] at h
  cases h with
  | deep _ h h2 =>
    rw [List.map_map, List.mem_map] at h
    obtain ⟨x, -, rfl⟩ := h
    rw [Function.comp_apply, wordRx, Rx.shape] at h2
    cases h2 with
    | deep _ h _ => cases h

variable (E) in
/-- **C129.** The hint is given for two alternative words or more. -/
theorem C129_hint (field : List Str) (pos : Pos) {src w w' : Str} {ws : List Str} {s : Rx}
    (hb : Bracketed (.alt ((w :: w' :: ws).map wordRx)) s) (h : ReadsRx E src s) :
    ⟨.hint, pos, "if you are doing large string alternations, consider using a multi-string match: such as '".toList ++
        List.intercalate ".".toList field ++ ":(\"one\", \"two\")'".toList⟩ ∈ reHints E field src pos s.shape := by
  rw [reHints_told E field src pos _ h.1]
  simp only [List.mem_append]
  have hl := looked_bracketed h.1 hb (by intro x; simp [Rx.shape, opAlternate, opCapture])
  rw [Rx.shape] at hl
  have := said (P := ∃ subs, Looked E src (.mk opAlternate subs) ∧ ¬ Unusual (.mk opAlternate subs))
    ⟨_, hl, words_usual w w' ws⟩ ⟨.hint, pos, alternationText (joinDots field)⟩
  refine .inl (.inl (.inr ?_))
  rw [joinDots_told] at this ⊢
  exact this

section

variable {f : List Str} {src u : Str} {ws : List Str} {s : Rx} {m m' : Matcher} {d : Json}

/-- **C129.** The pattern: yes iff one of the words is a part of a text under the path. -/
theorem C129_pattern (hb : Bracketed (.alt (ws.map wordRx)) s) (hs : ReadsRx E src s)
    (h : Ready E (.expr .EQ f [.regex u src noPosition] noPosition) m) (hp : Plain d f) :
    Accepts E m d ↔ ∃ x t, ScalarUnder E d f x ∧ TextOf E x t ∧ ∃ w ∈ ws, w <:+: t := by
  rw [accepts_pattern (.inl rfl) h hp]
  simp only [hs.2, found_bracketed hb, found_alt, List.mem_map, exists_exists_and_eq_and, found_wordRx]

/-- **C129.** The strings: yes iff one of the words occurs, ignoring case, between word boundaries. -/
theorem C129_strings (hE : FoldsApart E) (hw : ∀ w ∈ ws, ∀ c ∈ w, c.toNat < 128)
    (h : Ready E (.expr .EQ f (ws.map (.str · noPosition)) noPosition) m') (hp : Plain d f) :
    Accepts E m' d ↔ ∃ x t, ScalarUnder E d f x ∧ TextOf E x t ∧ ∃ w ∈ ws, Occurs CaseEq True w t := by
  rw [h.accepts hp]
  simp only [Sat, List.mem_map]
  constructor
  · rintro ⟨_, ⟨w, hm, rfl⟩, x, hx, t, ht, ho⟩
    exact ⟨x, t, hx, ht, w, hm, (strHolds_ascii hE (hw w hm) t).1 ho⟩
  · rintro ⟨x, t, hx, ht, w, hm, ho⟩
    exact ⟨_, ⟨w, hm, rfl⟩, x, hx, t, ht, (strHolds_ascii hE (hw w hm) t).2 ho⟩

theorem instance_word {R : Char → Char → Prop} {w mid : Str} {ts : List PTok} (hw : IsWordText w) (ht : Toks w ts)
    (h : Instance R ts mid) : List.Forall₂ R w mid := by
  induction ht generalizing mid with
  | nil => cases h; exact .nil
  | escOne _ => exact absurd rfl (word_char (hw '\\' (by simp))).2.2.2.1
  | escMany _ => exact absurd rfl (word_char (hw '\\' (by simp))).2.2.2.1
  | one _ => exact absurd (word_char (hw '?' (by simp))).1 (by decide)
  | many _ => exact absurd (word_char (hw '*' (by simp))).1 (by decide)
  | char _ _ _ _ ih =>
    cases h with
    | lit h1 h2 => exact .cons h1 (ih (fun c hc => hw c (by simp [hc])) h2)

theorem wordText_char {w : Str} (hw : IsWordText w) {c : Char} (hc : c ∈ w) : WordChar c := by
  rcases hw c hc with h | h | h
  · exact .inl h
  · exact .inr (.inl h)
  · exact .inr (.inr (.inl h))

/-- **C129, the part that holds.** Where case makes no difference (no letter of a text under the path is another
case of a letter of the words), the strings accept nothing that the pattern does not accept. -/
theorem C129_narrower_partial (hE : FoldsApart E) (hw : ∀ w ∈ ws, IsWordText w)
    (hb : Bracketed (.alt (ws.map wordRx)) s) (hs : ReadsRx E src s)
    (h : Ready E (.expr .EQ f [.regex u src noPosition] noPosition) m)
    (h' : Ready E (.expr .EQ f (ws.map (.str · noPosition)) noPosition) m') (hp : Plain d f)
    (hcase : ∀ x t, ScalarUnder E d f x → TextOf E x t → ∀ w ∈ ws, ∀ a ∈ w, ∀ b ∈ t, CaseEq a b → a = b)
    (ha : Accepts E m' d) : Accepts E m d := by
  rw [C129_pattern hb hs h hp]
  rw [C129_strings hE (fun w hm c hc => (word_char (hw w hm c hc)).2.1) h' hp] at ha
  obtain ⟨x, t, hx, ht, w, hm, ts, pre, mid, post, htk, rfl, hi, -⟩ := ha
  have hf := instance_word (hw w hm) htk hi
  have hc := hcase x _ hx ht w hm
  have he : w = mid := by
    have key : ∀ v n : Str, List.Forall₂ CaseEq v n → (∀ a ∈ v, a ∈ w) → (∀ b ∈ n, b ∈ mid) → v = n := by
      intro v n hf
      induction hf with
      | nil => intros; rfl
      | @cons a b v n h1 _ ih =>
        intro hv hn
        rw [hc a (hv a (by simp)) b (by simp [hn b (by simp)]) h1,
          ih (fun a ha => hv a (by simp [ha])) (fun b hb => hn b (by simp [hb]))]
    exact key w mid hf (fun _ h => h) (fun _ h => h)
  exact ⟨x, _, hx, ht, w, hm, pre, post, by rw [he]⟩

/-- **C129, the part that holds.** A text in which one of the words stands by itself is accepted by both. -/
theorem C129_both_partial (hE : FoldsApart E) (hw : ∀ w ∈ ws, IsWordText w ∧ w ≠ [])
    (hb : Bracketed (.alt (ws.map wordRx)) s) (hs : ReadsRx E src s)
    (h : Ready E (.expr .EQ f [.regex u src noPosition] noPosition) m)
    (h' : Ready E (.expr .EQ f (ws.map (.str · noPosition)) noPosition) m') (hp : Plain d f)
    {x : Json} {pre w post : Str} (hx : ScalarUnder E d f x) (ht : TextOf E x (pre ++ w ++ post)) (hm : w ∈ ws)
    (hpre : ∀ c, pre.getLast? = some c → ¬ WordChar c) (hpost : ∀ c, post.head? = some c → ¬ WordChar c) :
    Accepts E m d ∧ Accepts E m' d := by
  rw [C129_pattern hb hs h hp,
    C129_strings hE (fun w hm c hc => (word_char ((hw w hm).1 c hc)).2.1) h' hp]
  refine ⟨⟨x, _, hx, ht, w, hm, pre, post, rfl⟩, x, _, hx, ht, w, hm, _, pre, w, post, toks_toksOf w, rfl, ?_, fun _ => ⟨?_, ?_⟩⟩
  · exact instance_self (toks_toksOf w) (fun hc => (word_char ((hw w hm).1 _ hc)).2.2.2.1 rfl)
      (fun c hc => (word_char ((hw w hm).1 c hc)).2.1)
  · intro hiff
    obtain ⟨c, hc⟩ := Option.ne_none_iff_exists'.1 (fun h => (hw w hm).2 (List.head?_eq_none_iff.1 h))
    obtain ⟨b, hb, hbw⟩ := hiff.2 ⟨c, by rw [List.head?_append, hc]; rfl,
      wordText_char (hw w hm).1 (List.mem_of_head? hc)⟩
    exact hpre b hb hbw
  · intro hiff
    obtain ⟨c, hc⟩ := Option.ne_none_iff_exists'.1 (fun h => (hw w hm).2 (List.getLast?_eq_none_iff.1 h))
    obtain ⟨b, hb, hbw⟩ := hiff.1 ⟨c, by rw [List.getLast?_append, hc]; rfl,
      wordText_char (hw w hm).1 (List.mem_of_getLast? hc)⟩
    exact hpost b hb hbw

end

/-- `(?i)\bw\b`. -/
def wordPattern (w : Str) : Str := "(?i)\\b".toList ++ w ++ "\\b".toList

theorem parseFrag_wordPattern {w : Str} (hw : IsWordText w) :
    parseFrag (wordPattern w) = some (.wb :: (w.map Atom.lit ++ [.wb])) := by
  have e1 : ("(?i)\\b".toList : Str) = ['(', '?', 'i', ')', '\\', 'b'] := by decide
  have e2 : ("\\b".toList : Str) = ['\\', 'b'] := by decide
  have hb : ∀ r, parseAtoms ('\\' :: 'b' :: r) = (parseAtoms r).map (Atom.wb :: ·) := by
    intro r; rw [parseAtoms]; simp
  have hp : ∀ v : Str, IsWordText v → parseAtoms (v ++ ['\\', 'b']) = some (v.map Atom.lit ++ [.wb]) := by
    intro v
    induction v with
    | nil => intro _; rw [List.nil_append, hb]; rfl
    | cons c v ih =>
      intro hv
      rw [List.cons_append, parseAtoms_plain (word_char (hv c (by simp))).1, ih fun x hx => hv x (by simp [hx])]
      rfl
  rw [wordPattern, e1, e2]
  simp only [List.cons_append, List.nil_append, parseFrag, hb, hp w hw]
  rfl

theorem toksOf_word {w : Str} (hw : IsWordText w) : Toks w (w.map PTok.lit) := by
  induction w with
  | nil => exact .nil
  | cons c w ih =>
    have hc := word_char (hw c (by simp))
    refine .char ?_ ?_ (fun h => hc.2.2.2.1 h.1) (ih fun x hx => hw x (by simp [hx]))
    · rintro rfl; exact absurd hc.1 (by decide)
    · rintro rfl; exact absurd hc.1 (by decide)

theorem match_wordPattern (hE : FoldsApart E) {w : Str} (hw : IsWordText w) (t : Str) :
    reMatchString E (wordPattern w) t = true ↔ Occurs CaseEq True w t := by
  have ha : w.map Atom.lit = (w.map PTok.lit).map atomOf := by simp [Function.comp_def, atomOf]
  have hlit : ∀ c, PTok.lit c ∈ w.map PTok.lit → c.toNat < 128 := by
    intro c hc
    obtain ⟨x, hx, he⟩ := List.mem_map.1 hc
    cases he
    exact (word_char (hw _ hx)).2.1
  rw [reMatchString, parseFrag_wordPattern hw]
  simp only [searchFrom_iff, ha]
  constructor
  · rintro ⟨pre, post, rfl, h⟩
    rw [matchHere, Bool.and_eq_true, matchHere_toks] at h
    obtain ⟨hb, mid, post', rfl, hi, h⟩ := h
    rw [matchHere, Bool.and_eq_true] at h
    refine ⟨_, pre, mid, post', toksOf_word hw, by simp, (instance_fold hE hlit).1 hi, fun _ => ⟨?_, ?_⟩⟩
    · rw [← isBoundary_iff, ← lastOr_none]; exact hb
    · rw [← isBoundary_iff, ← lastOr_none, lastOr_append]; exact h.1
  · rintro ⟨ts, pre, mid, post, htk, rfl, hi, h⟩
    obtain ⟨h1, h2⟩ := h trivial
    obtain rfl := htk.unique (toksOf_word hw)
    refine ⟨pre, mid ++ post, by simp, ?_⟩
    rw [matchHere, Bool.and_eq_true, matchHere_toks]
    refine ⟨?_, mid, post, rfl, (instance_fold hE hlit).2 hi, ?_⟩
    · rw [lastOr_none, isBoundary_iff]; exact h1
    · rw [matchHere, Bool.and_eq_true, ← lastOr_append, lastOr_none, isBoundary_iff]
      exact ⟨h2, by rw [matchHere]⟩

/-- **C129, patterns that can be replaced.** Several patterns `/(?i)\bword\b/` accept exactly the documents that
the strings accept, whatever the library does elsewhere. -/
theorem C129_same {f : List Str} {ws : List Str} {u : Str → Str} {m m' : Matcher} {d : Json} (hE : FoldsApart E)
    (hw : ∀ w ∈ ws, IsWordText w)
    (h : Ready E (.expr .EQ f (ws.map fun w => .regex (u w) (wordPattern w) noPosition) noPosition) m)
    (h' : Ready E (.expr .EQ f (ws.map (.str · noPosition)) noPosition) m') (hp : Plain d f) :
    Accepts E m d ↔ Accepts E m' d := by
  rw [C129_strings hE (fun w hm c hc => (word_char (hw w hm c hc)).2.1) h' hp, h.accepts hp]
  simp only [Sat, List.mem_map]
  constructor
  · rintro ⟨_, ⟨w, hm, rfl⟩, x, hx, t, ht, ho⟩
    exact ⟨x, t, hx, ht, w, hm, (match_wordPattern hE (hw w hm) t).1 ho⟩
  · rintro ⟨x, t, hx, ht, w, hm, ho⟩
    exact ⟨_, ⟨w, hm, rfl⟩, x, hx, t, ht, (match_wordPattern hE (hw w hm) t).2 ho⟩

example : ∃ m, Ready testEnv (.expr .EQ ["a".toList] (["one".toList, "Two".toList].map fun w =>
    .regex ('/' :: (wordPattern w ++ ['/'])) (wordPattern w) noPosition) noPosition) m :=
  ready_of_compiles testEnv (by decide +kernel) ⟨trivial, by simp [LitsIn, LitOk]⟩

/-- Reads `one|two`. -/
def eitherEnv : Env :=
  { testEnv with
    reMatch := fun _ t => decide ("one".toList <:+: t ∨ "two".toList <:+: t)
    reSyntax := fun _ => some (Rx.alt (["one".toList, "two".toList].map wordRx)).shape }

theorem reads_words : ReadsRx eitherEnv "one|two".toList (.alt (["one".toList, "two".toList].map wordRx)) := by
  refine ⟨rfl, fun t => ?_⟩
  have hf : parseFrag "one|two".toList = none := by decide
  rw [found_alt, List.map_cons, List.map_cons, List.map_nil]
  simp only [reMatchString, hf, eitherEnv, decide_eq_true_eq, List.mem_cons, List.not_mem_nil, or_false]
  constructor
  · rintro (h | h)
    · exact ⟨_, .inl rfl, found_wordRx.2 h⟩
    · exact ⟨_, .inr rfl, found_wordRx.2 h⟩
  · rintro ⟨_, rfl | rfl, h⟩
    · exact .inl (found_wordRx.1 h)
    · exact .inr (found_wordRx.1 h)

/-- In a text of letters and digits, a word occurs only as the whole text. -/
theorem occurs_whole {w t : Str} (hw : IsWordText w) (hn : w ≠ []) (ht : IsWordText t) (h : Occurs CaseEq True w t) :
    List.Forall₂ CaseEq w t := by
  obtain ⟨ts, pre, mid, post, htk, rfl, hi, hb⟩ := h
  have hf := instance_word hw htk hi
  have hmid : mid ≠ [] := by
    rintro rfl
    cases hf
    exact hn rfl
  obtain ⟨h1, h2⟩ := hb trivial
  have hpre : pre = [] := by
    by_contra hp
    obtain ⟨a, ha⟩ := Option.ne_none_iff_exists'.1 (fun h => hp (List.getLast?_eq_none_iff.1 h))
    obtain ⟨b, hb⟩ := Option.ne_none_iff_exists'.1 (fun h => hmid (List.head?_eq_none_iff.1 h))
    refine h1 ⟨fun _ => ⟨b, by rw [List.head?_append, hb]; rfl, wordText_char ht ?_⟩,
      fun _ => ⟨a, ha, wordText_char ht ?_⟩⟩
    · simp [List.mem_of_head? hb]
    · simp [List.mem_of_getLast? ha]
  have hpost : post = [] := by
    by_contra hp
    obtain ⟨a, ha⟩ := Option.ne_none_iff_exists'.1 (fun h => hp (List.head?_eq_none_iff.1 h))
    obtain ⟨b, hb⟩ := Option.ne_none_iff_exists'.1 (fun h => hmid (List.getLast?_eq_none_iff.1 h))
    refine h2 ⟨fun _ => ⟨a, ha, wordText_char ht ?_⟩,
      fun _ => ⟨b, by rw [List.getLast?_append, hb]; rfl, wordText_char ht ?_⟩⟩
    · simp [List.mem_of_head? ha]
    · simp [List.mem_of_getLast? hb]
  subst hpre hpost
  simpa using hf

theorem either_text {x : Json} {raw t : Str} (hr : '\\' ∉ raw)
    (hx : ScalarUnder eitherEnv (.obj [("a".toList, .str raw)]) ["a".toList] x) (ht : TextOf eitherEnv x t) : t = raw := by
  rw [single_str (by decide +kernel)] at hx
  subst hx
  cases ht with
  | str h =>
    have : eitherEnv.unescape raw = some raw := if_neg hr
    rw [this] at h
    exact (Option.some.inj h).symm

theorem either_has {raw : Str} (hr : '\\' ∉ raw) :
    ∃ x, ScalarUnder eitherEnv (.obj [("a".toList, .str raw)]) ["a".toList] x ∧ TextOf eitherEnv x raw :=
  ⟨_, (single_str (by decide +kernel) _ _).2 rfl, .str (if_neg hr)⟩

/-- **C129** is false as it stands, both ways: the pattern is found inside of words (`phone`), and the strings
ignore case (`ONE`). -/
theorem C129_refuted : ∃ (E : Env) (m m' : Matcher),
    ReadsRx E "one|two".toList (.alt (["one".toList, "two".toList].map wordRx)) ∧
    Ready E (.expr .EQ ["a".toList] [.regex "/one|two/".toList "one|two".toList noPosition] noPosition) m ∧
    Ready E (.expr .EQ ["a".toList] (["one".toList, "two".toList].map (.str · noPosition)) noPosition) m' ∧
    (Accepts E m (.obj [("a".toList, .str "phone".toList)]) ∧ ¬ Accepts E m' (.obj [("a".toList, .str "phone".toList)])) ∧
    (¬ Accepts E m (.obj [("a".toList, .str "ONE".toList)]) ∧ Accepts E m' (.obj [("a".toList, .str "ONE".toList)])) := by
  have hE : FoldsApart eitherEnv := fun _ h _ _ => h
  obtain ⟨m, hm⟩ := ready_of_compiles eitherEnv
    (root := .expr .EQ ["a".toList] [.regex "/one|two/".toList "one|two".toList noPosition] noPosition)
    (by decide +kernel) ⟨trivial, by simp [LitsIn, LitOk]⟩
  obtain ⟨m', hm'⟩ := ready_of_compiles eitherEnv
    (root := .expr .EQ ["a".toList] (["one".toList, "two".toList].map (.str · noPosition)) noPosition)
    (by decide +kernel) ⟨trivial, by simp [LitsIn, LitOk]⟩
  have hasc : ∀ w ∈ ["one".toList, "two".toList], ∀ c ∈ w, c.toNat < 128 := by decide
  refine ⟨eitherEnv, m, m', reads_words, hm, hm', ?_, ?_⟩
  · rw [C129_pattern (.inl rfl) reads_words hm plain_single, C129_strings hE hasc hm' plain_single]
    refine ⟨?_, ?_⟩
    · obtain ⟨x, hx, ht⟩ := either_has (raw := "phone".toList) (by decide)
      exact ⟨x, _, hx, ht, _, by simp, (by decide : "one".toList <:+: "phone".toList)⟩
    · rintro ⟨x, t, hx, ht, w, hw, ho⟩
      obtain rfl := either_text (by decide) hx ht
      have hw' : IsWordText w ∧ w ≠ [] ∧ w.length = 3 := by
        clear ho; revert w; unfold IsWordText; decide
      have := (occurs_whole hw'.1 hw'.2.1 (by unfold IsWordText; decide) ho).length_eq
      rw [hw'.2.2] at this
      exact absurd this (by decide)
  · rw [C129_pattern (.inl rfl) reads_words hm plain_single, C129_strings hE hasc hm' plain_single]
    refine ⟨?_, ?_⟩
    · rintro ⟨x, t, hx, ht, w, hw, ho⟩
      obtain rfl := either_text (by decide) hx ht
      revert w
      decide
    · obtain ⟨x, hx, ht⟩ := either_has (raw := "ONE".toList) (by decide)
      refine ⟨x, _, hx, ht, "one".toList, by simp, _, [], "ONE".toList, [], toks_toksOf _, by decide, ?_, fun _ => ⟨?_, ?_⟩⟩
      · have : toksOf "one".toList = [.lit 'o', .lit 'n', .lit 'e'] := by decide +kernel
        rw [this]
        exact .lit (by unfold CaseEq; decide) (.lit (by unfold CaseEq; decide) (.lit (by unfold CaseEq; decide) .nil))
      · intro hiff
        obtain ⟨c, hc, -⟩ := hiff.2 ⟨'O', by decide, by unfold WordChar; decide⟩
        cases hc
      · intro hiff
        obtain ⟨c, hc, -⟩ := hiff.1 ⟨'E', by decide, by unfold WordChar; decide⟩
        cases hc

example : ∀ w ∈ ["one".toList, "two".toList], IsWordText w ∧ w ≠ [] := by unfold IsWordText; decide

end Aql
