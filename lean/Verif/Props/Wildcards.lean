import Verif.Proofs.Wildcards
import Verif.Props.Strings
/-!
Property C110: what wildcards add to a string literal (jsonmatcher/str_matchers.go, README "String
Comparisons").
-/

namespace Aql

open Spec

variable {E : Env} {f : List Str} {m m' : Matcher} {p p' pos pos' : Pos} {d : Json} {lit lit' : Str}

theorem caseEq_newline (c : Char) (h : CaseEq c '\n') : c = '\n' := by
  have hn : '\n'.toNat = 10 := rfl
  have c1 : 'a'.toNat = 97 := rfl
  unfold CaseEq at h
  rcases h with ⟨_, h | ⟨h, _, h'⟩ | ⟨_, _, h'⟩⟩ | ⟨h, _⟩ | ⟨h, _⟩
  · exact h
  · rw [char_le_iff] at h; omega
  · omega
  · exact absurd h (by decide)
  · exact absurd h (by decide)

/-- **C110.** A wider pattern matches whatever the narrower one matches: replacing characters by `?`, `?` by `*`, putting
in `*`. -/
theorem C110_wider (hE : FoldsApart E) (hl : ∀ c ∈ lit, c.toNat < 128) (hl' : ∀ c ∈ lit', c.toNat < 128)
    {ts ts' : List PTok} (ht : Toks lit ts) (ht' : Toks lit' ts') (hw : Wider ts ts')
    (h : Ready E (.expr .EQ f [.str lit p] pos) m) (h' : Ready E (.expr .EQ f [.str lit' p'] pos') m')
    (hp : Plain d f) (ha : Accepts E m d) : Accepts E m' d := by
  rw [C35_wildcards hE hl h hp] at ha
  rw [C35_wildcards hE hl' h' hp]
  obtain ⟨s, t, h1, h2, us, pre, mid, post, h3, h4, h5, h6⟩ := ha
  obtain rfl := h3.unique ht
  exact ⟨s, t, h1, h2, ts', pre, mid, post, ht', h4, instance_wider caseEq_newline hw h5, h6⟩

-- `fo*d` is wider than `food`, and `*?` is as wide as `?*`
example : Toks "food".toList (toksOf "food".toList) ∧ Toks "fo*d".toList (toksOf "fo*d".toList) ∧
    Wider (toksOf "food".toList) (toksOf "fo*d".toList) := by
  refine ⟨toks_toksOf _, toks_toksOf _, ?_⟩
  have h1 : toksOf "food".toList = [.lit 'f', .lit 'o', .lit 'o', .lit 'd'] := by decide +kernel
  have h2 : toksOf "fo*d".toList = [.lit 'f', .lit 'o', .many, .lit 'd'] := by decide +kernel
  rw [h1, h2]
  exact .behind _ (.behind _ (.step (.anyChar _ (by decide)) (.anyRun _)))

example : Wider (toksOf "*?".toList) (toksOf "?*".toList) ∧ Wider (toksOf "?*".toList) (toksOf "*?".toList) := by
  have h1 : toksOf "*?".toList = [.many, .one] := by decide +kernel
  have h2 : toksOf "?*".toList = [.one, .many] := by decide +kernel
  rw [h1, h2]
  exact ⟨.swapBack _, .swap _⟩

theorem asciiLower_of_caseEq {a x : Char} (hx : x.toNat < 128) (h : CaseEq a x) : asciiLower a = asciiLower x := by
  have c1 : 'a'.toNat = 97 := rfl
  have c2 : 'z'.toNat = 122 := rfl
  have c3 : 'A'.toNat = 65 := rfl
  have c4 : 'Z'.toNat = 90 := rfl
  have ek : kelvin.toNat = 8490 := by decide
  have es : longS.toNat = 383 := by decide
  unfold CaseEq at h
  simp only [char_le_iff, c1, c2, c3, c4] at h
  rw [char_eq_toNat, asciiLower_toNat, asciiLower_toNat]
  rcases h with ⟨_, h | h | h⟩ | ⟨h, _⟩ | ⟨h, _⟩
  · rw [h]
  · split <;> split <;> omega
  · split <;> split <;> omega
  · rw [h] at hx; omega
  · rw [h] at hx; omega

/-- **C110.** Literals that differ only in the case of their letters match the same documents. -/
theorem C110_case (hl : ∀ c ∈ lit, c.toNat < 128) (hl' : ∀ c ∈ lit', c.toNat < 128) (hc : List.Forall₂ CaseEq lit lit')
    (h : Ready E (.expr .EQ f [.str lit p] pos) m) (h' : Ready E (.expr .EQ f [.str lit' p'] pos') m')
    (hp : Plain d f) : Accepts E m d ↔ Accepts E m' d := by
  have hlow : toLower E lit = toLower E lit' := by
    rw [toLower_ascii E hl, toLower_ascii E hl']
    clear h h' hl
    induction hc with
    | nil => rfl
    | cons h1 _ ih =>
      rw [List.map_cons, List.map_cons, ih (fun c hc => hl' c (by simp [hc])),
        asciiLower_of_caseEq (hl' _ (by simp)) h1]
  have hs : ∀ t, StrHolds E lit t ↔ StrHolds E lit' t := by
    intro t
    unfold StrHolds
    rw [if_neg (fun ⟨⟨c, hc, hn⟩, _⟩ => absurd (hl c hc) (by omega)),
      if_neg (fun ⟨⟨c, hc, hn⟩, _⟩ => absurd (hl' c hc) (by omega)), hlow]
  rw [h.accepts hp, h'.accepts hp]
  simp only [Sat, List.mem_singleton, exists_eq_left, EqHolds, hs]

example : List.Forall₂ CaseEq "a:F?o".toList "A:f?O".toList :=
  .cons (.inl (by decide)) (.cons (.inl (by decide)) (.cons (.inl (by decide)) (.cons (.inl (by decide))
    (.cons (.inl (by decide)) .nil))))

theorem toks_stars (h : ∀ c ∈ lit, c = '*') : Toks lit (lit.map fun _ => .many) := by
  induction lit with
  | nil => exact .nil
  | cons c s ih =>
    obtain rfl := h c (by simp)
    exact .many (ih fun c hc => h c (by simp [hc]))

/-- **C110.** `*`, any number of them and the empty literal match exactly the texts with a letter, digit or underscore:
not every text, as neither an empty one nor `"!"` has a word boundary. -/
theorem C110_star (hE : FoldsApart E) (hl : ∀ c ∈ lit, c = '*')
    (h : Ready E (.expr .EQ f [.str lit p] pos) m) (hp : Plain d f) :
    Accepts E m d ↔ ∃ s t, ScalarUnder E d f s ∧ TextOf E s t ∧ ∃ c ∈ t, WordChar c := by
  rw [C35_wildcards hE (fun c hc => by rw [hl c hc]; decide) h hp]
  constructor
  · rintro ⟨s, t, h1, h2, _, pre, mid, post, _, rfl, _, h6⟩
    refine ⟨s, _, h1, h2, ?_⟩
    obtain ⟨c, hc, hw⟩ := boundary_word (h6 trivial).1
    exact ⟨c, by simpa [List.append_assoc] using hc, hw⟩
  · rintro ⟨s, t, h1, h2, c, hc, hw⟩
    refine ⟨s, t, h1, h2, lit.map fun _ => .many, ?_⟩
    obtain ⟨pre, post, rfl⟩ := List.append_of_mem hc
    obtain ⟨pre', run, rfl, _, hb⟩ := boundary_left hw pre post
    refine ⟨pre', [], run ++ c :: post, toks_stars hl, by simp, instance_stars (by simp), fun _ => ?_⟩
    simpa using hb

/-- **C110.** `?` matches exactly the texts with a word of one character or two words separated by one. -/
theorem C110_question (hE : FoldsApart E) (h : Ready E (.expr .EQ f [.str "?".toList p] pos) m) (hp : Plain d f) :
    Accepts E m d ↔ ∃ s t, ScalarUnder E d f s ∧ TextOf E s t ∧ Alone t := by
  rw [C35_wildcards hE (by decide) h hp]
  have key : ∀ t, Occurs CaseEq True "?".toList t ↔ Alone t := by
    intro t
    have hk : ∀ (pre post : Str) (x : Char), (WordBoundary pre (x :: post) ∧ WordBoundary (pre ++ [x]) post) ↔
        ((WordChar x ∧ (∀ c, pre.getLast? = some c → ¬ WordChar c) ∧ ∀ c, post.head? = some c → ¬ WordChar c) ∨
         (¬ WordChar x ∧ (∃ c, pre.getLast? = some c ∧ WordChar c) ∧ ∃ c, post.head? = some c ∧ WordChar c)) := by
      intro pre post x
      have e1 : (∀ c, pre.getLast? = some c → ¬ WordChar c) ↔ ¬ ∃ c, pre.getLast? = some c ∧ WordChar c := by simp
      have e2 : (∀ c, post.head? = some c → ¬ WordChar c) ↔ ¬ ∃ c, post.head? = some c ∧ WordChar c := by simp
      rw [e1, e2]
      unfold WordBoundary
      have e3 : (∃ c, (x :: post).head? = some c ∧ WordChar c) ↔ WordChar x := by simp
      have e4 : (∃ c, (pre ++ [x]).getLast? = some c ∧ WordChar c) ↔ WordChar x := by simp
      rw [e3, e4]
      by_cases hx : WordChar x <;> simp only [hx, iff_true, iff_false, true_iff, false_iff, true_and, false_and, not_true_eq_false,
        not_false_eq_true, or_false, false_or, not_not]
    have ht : Toks "?".toList [.one] := by exact .one .nil
    constructor
    · rintro ⟨ts, pre, mid, post, h1, rfl, h3, h4⟩
      obtain rfl := h1.unique ht
      cases h3 with
      | one h5 h6 =>
        cases h6
        exact ⟨pre, _, post, by simp, h5, (hk _ _ _).1 (h4 trivial)⟩
    · rintro ⟨pre, x, post, rfl, h1, h2⟩
      exact ⟨_, pre, [x], post, ht, by simp, .one h1 .nil, fun _ => (hk _ _ _).2 h2⟩
  simp only [key]

-- `"a-b"` has two words separated by one character, `"x, yz"` a word of one, `"ab"` neither
example : Alone "a-b".toList := ⟨['a'], '-', ['b'], rfl, by decide, .inr (by unfold WordChar; simp)⟩
example : Alone "x, yz".toList := ⟨[], 'x', ", yz".toList, rfl, by decide, .inl (by unfold WordChar; simp)⟩
example : ¬ Alone "ab".toList := by
  rintro ⟨pre, x, post, h, _, h'⟩
  have ha : WordChar 'a' := by unfold WordChar; decide
  have hb : WordChar 'b' := by unfold WordChar; decide
  have h : ['a', 'b'] = pre ++ x :: post := h
  match pre with
  | [] => cases h; simp [ha, hb] at h'
  | [c] => cases h; simp [ha, hb] at h'
  | c :: c' :: pre => simp at h

theorem toks_star_end {ts : List PTok} (h : Toks lit ts) (hb : ts.getLast? ≠ some (.lit '\\')) :
    Toks (lit ++ ['*']) (ts ++ [.many]) := by
  have hd : ∀ {s : Str} {ts : List PTok}, Toks s ts → s ≠ [] → ts ≠ [] := by
    intro s ts h hs
    cases h <;> simp at hs ⊢
  have next : ∀ {t : PTok} {ts : List PTok}, (t :: ts).getLast? ≠ some (.lit '\\') → ts.getLast? ≠ some (.lit '\\') := by
    intro t ts h
    cases ts with
    | nil => simp
    | cons => simpa using h
  induction h with
  | nil => exact .many .nil
  | escOne _ ih => exact .escOne (ih (next hb))
  | escMany _ ih => exact .escMany (ih (next hb))
  | one _ ih => exact .one (ih (next hb))
  | many _ ih => exact .many (ih (next hb))
  | @char c s ts h1 h2 h3 h4 ih =>
    refine .char h1 h2 ?_ (ih (next hb))
    rintro ⟨rfl, hh⟩
    cases s with
    | nil => cases h4; simp at hb
    | cons x s => exact h3 ⟨rfl, by simpa using hh⟩

/-- A character equal to a word character up to case is one, but for the Kelvin sign and the long s. -/
theorem word_of_caseEq {a x : Char} (ha : WordChar a) (h : CaseEq a x) (hk : x ≠ kelvin) (hs : x ≠ longS) : WordChar x := by
  have c1 : 'a'.toNat = 97 := rfl
  have c2 : 'z'.toNat = 122 := rfl
  have c3 : 'A'.toNat = 65 := rfl
  have c4 : 'Z'.toNat = 90 := rfl
  unfold CaseEq at h
  rcases h with ⟨_, rfl | h | h⟩ | ⟨h, _⟩ | ⟨h, _⟩
  · exact ha
  · simp only [WordChar, char_le_iff, c1, c2, c3, c4] at h ⊢; omega
  · simp only [WordChar, char_le_iff, c1, c2, c3, c4] at h ⊢; omega
  · exact absurd h hk
  · exact absurd h hs

theorem instance_last {eqv : Char → Char → Prop} {ts : List PTok} {xs : Str} {c : Char} (h : Instance eqv ts xs)
    (hc : ts.getLast? = some (.lit c)) : ∃ ys x, xs = ys ++ [x] ∧ eqv c x := by
  obtain ⟨us, rfl⟩ := List.getLast?_eq_some_iff.1 hc
  obtain ⟨a, b, rfl, _, h2⟩ := instance_append.1 h
  cases h2 with
  | lit h3 h4 => cases h4; exact ⟨a, _, rfl, h3⟩

/-- What `*x*` finds contains an instance of `x`. -/
theorem contains_of_occurs {ts : List PTok} {t : Str} (ht : Toks lit ts) (hb : ts.getLast? ≠ some (.lit '\\'))
    (h : Occurs CaseEq True ('*' :: (lit ++ ['*'])) t) : Contains CaseEq ts t := by
  obtain ⟨us, pre, mid, post, h1, rfl, h3, _⟩ := h
  obtain rfl := h1.unique (.many (toks_star_end ht hb))
  cases h3 with
  | @many r1 _ _ _ h5 =>
    obtain ⟨a, b, rfl, h6, h7⟩ := instance_append.1 h5
    exact ⟨pre ++ r1, a, b ++ post, by simp, h6⟩

theorem occurs_of_contains {ts : List PTok} {t : Str} (ht : Toks lit ts) (hw : WordEnded ts)
    (hk : kelvin ∉ t) (hs : longS ∉ t) (h : Contains CaseEq ts t) : Occurs CaseEq True ('*' :: (lit ++ ['*'])) t := by
  obtain ⟨pre, mid, post, rfl, hi⟩ := h
  obtain ⟨⟨a, ha, hwa⟩, b, hb, hwb⟩ := hw
  have hne : ts.getLast? ≠ some (.lit '\\') := by
    rw [hb]; rintro ⟨⟩; revert hwb; unfold WordChar; decide
  obtain ⟨ys, y, rfl, hy⟩ := instance_last hi hb
  have hyw : WordChar y := word_of_caseEq hwb hy (fun h => hk (by simp [h])) (fun h => hs (by simp [h]))
  obtain ⟨x, xs, hx, hxw⟩ : ∃ x xs, ys ++ [y] = x :: xs ∧ WordChar x := by
    cases ts with
    | nil => cases ha
    | cons t ts =>
      cases ha
      revert hk hs
      generalize ys ++ [y] = zs at hi
      intro hk hs
      cases hi with
      | lit h1 _ =>
        exact ⟨_, _, rfl, word_of_caseEq hwa h1 (fun h => hk (by simp [h])) (fun h => hs (by simp [h]))⟩
  obtain ⟨pre', r1, rfl, hn1, hb1⟩ := boundary_left hxw pre (xs ++ post)
  obtain ⟨r2, post', rfl, hn2, hb2⟩ := boundary_right hyw (pre' ++ r1 ++ ys) post
  refine ⟨_, pre', r1 ++ ((ys ++ [y]) ++ r2), post', .many (toks_star_end ht hne), by simp, ?_, fun _ => ⟨?_, ?_⟩⟩
  · refine .many hn1 (instance_append.2 ⟨_, _, rfl, hi, ?_⟩)
    have := Instance.many (eqv := CaseEq) hn2 .nil
    simpa using this
  · have : r1 ++ ((ys ++ [y]) ++ r2) ++ post' = r1 ++ x :: (xs ++ (r2 ++ post')) := by
      rw [hx]; simp
    rw [this]; exact hb1
  · have : pre' ++ (r1 ++ ((ys ++ [y]) ++ r2)) = pre' ++ r1 ++ ys ++ y :: r2 := by simp
    rw [this]; exact hb2

/-- **C110 (partial).** `*x*` matches exactly the texts that contain an instance of `x` anywhere, also inside words, provided
that `x` begins and ends with a letter, digit or underscore. -/
theorem C110_contains_partial (hE : FoldsApart E) (hl : ∀ c ∈ lit, c.toNat < 128) {ts : List PTok} (ht : Toks lit ts)
    (hw : WordEnded ts) (h : Ready E (.expr .EQ f [.str ('*' :: (lit ++ ['*'])) p] pos) m) (hp : Plain d f)
    (hd : ∀ s t, ScalarUnder E d f s → TextOf E s t → kelvin ∉ t ∧ longS ∉ t) :
    Accepts E m d ↔ ∃ s t, ScalarUnder E d f s ∧ TextOf E s t ∧ Contains CaseEq ts t := by
  have hl' : ∀ c ∈ '*' :: (lit ++ ['*']), c.toNat < 128 := by
    intro c hc
    simp only [List.mem_cons, List.mem_append, List.not_mem_nil, or_false] at hc
    rcases hc with rfl | hc | rfl
    · decide
    · exact hl c hc
    · decide
  have hne : ts.getLast? ≠ some (.lit '\\') := by
    obtain ⟨_, b, hb, hwb⟩ := hw
    rw [hb]; rintro ⟨⟩; revert hwb; unfold WordChar; decide
  rw [C35_wildcards hE hl' h hp]
  constructor
  · rintro ⟨s, t, h1, h2, h3⟩
    exact ⟨s, t, h1, h2, contains_of_occurs ht hne h3⟩
  · rintro ⟨s, t, h1, h2, h3⟩
    exact ⟨s, t, h1, h2, occurs_of_contains ht hw (hd s t h1 h2).1 (hd s t h1 h2).2 h3⟩

-- the hypotheses hold for `x` = `f?o`
example : Toks "f?o".toList [.lit 'f', .one, .lit 'o'] ∧ WordEnded [.lit 'f', .one, .lit 'o'] := by
  constructor
  · have := toks_toksOf "f?o".toList
    have h : toksOf "f?o".toList = [.lit 'f', .one, .lit 'o'] := by decide +kernel
    rwa [h] at this
  · exact ⟨⟨'f', rfl, by unfold WordChar; decide⟩, 'o', rfl, by unfold WordChar; decide⟩

/-- **C110 (refuted).** Not so for other `x`: `a:"*C#*"` does not match `{"a": "C#"}`. -/
theorem C110_contains_refuted (hE : FoldsApart E) (hk : E.unescape "a".toList = some "a".toList)
    (ht : E.unescape "C#".toList = some "C#".toList) : ∃ m,
    Ready E (.expr .EQ ["a".toList] [.str "*C#*".toList noPosition] noPosition) m ∧
      (∃ ts, Toks "C#".toList ts ∧ Contains CaseEq ts "C#".toList) ∧
      ¬ Accepts E m (.obj [("a".toList, .str "C#".toList)]) := by
  obtain ⟨m, hm⟩ := ready_str E ["a".toList] "*C#*".toList
  have hts : toksOf "C#".toList = [.lit 'C', .lit '#'] := by decide +kernel
  refine ⟨m, hm, ⟨_, toks_toksOf _, [], "C#".toList, [], by decide, ?_⟩, ?_⟩
  · rw [hts]; exact .lit (.inl (by decide)) (.lit (.inl (by decide)) .nil)
  · rw [C35_wildcards hE (by decide) hm plain_single]
    rintro ⟨s, t, hs, htx, ts, pre, mid, post, h1, h2, h3, h4⟩
    rw [single_str hk] at hs
    subst hs
    cases htx with
    | str htx =>
      rw [ht] at htx
      cases htx
      have h5 : toksOf "*C#*".toList = [.many] ++ ([.lit 'C', .lit '#'] ++ [.many]) := by decide +kernel
      have := toks_toksOf "*C#*".toList
      rw [h5] at this
      obtain rfl := h1.unique this
      obtain ⟨r1, b, rfl, _, h6⟩ := instance_append.1 h3
      obtain ⟨c, r2, rfl, h7, _⟩ := instance_append.1 h6
      have hlen := instance_length h7 (by simp)
      have hl2 := congrArg List.length h2
      simp only [List.length_append, List.length_cons, List.length_nil] at hlen hl2
      have hl3 : "C#".toList.length = 2 := rfl
      rw [hl3] at hl2
      obtain rfl : pre = [] := List.length_eq_zero_iff.1 (by omega)
      obtain rfl : r1 = [] := List.length_eq_zero_iff.1 (by omega)
      obtain rfl : r2 = [] := List.length_eq_zero_iff.1 (by omega)
      obtain rfl : post = [] := List.length_eq_zero_iff.1 (by omega)
      simp only [List.nil_append, List.append_nil] at h2 h4
      subst h2
      have := (h4 trivial).2
      rw [← isBoundary_iff] at this
      revert this
      decide +kernel

theorem occurs_star_iff {ts : List PTok} {t : Str} (ht : Toks lit ts) (hb : ts.getLast? ≠ some (.lit '\\')) :
    Occurs CaseEq True ('*' :: (lit ++ ['*'])) t ↔ ∃ pre mid post, t = pre ++ mid ++ post ∧ Instance CaseEq ts mid ∧
      WordUpTo pre (mid ++ post) ∧ WordFrom (pre ++ mid) post := by
  constructor
  · rintro ⟨us, pre, mid, post, h1, rfl, h3, h4⟩
    obtain rfl := h1.unique (.many (toks_star_end ht hb))
    obtain ⟨h4, h5⟩ := h4 trivial
    cases h3 with
    | @many r1 _ _ hn1 h6 =>
      obtain ⟨a, b, rfl, h6, h7⟩ := instance_append.1 h6
      obtain ⟨r2, rfl, hn2⟩ : ∃ r2, b = r2 ∧ '\n' ∉ r2 := by
        cases h7 with
        | @many r2 _ _ hn2 h8 => cases h8; exact ⟨_, rfl, by simpa using hn2⟩
      refine ⟨pre ++ r1, a, b ++ post, by simp, h6, wordUpTo_iff.2 ⟨pre, r1, rfl, hn1, by simpa using h4⟩,
        wordFrom_iff.2 ⟨b, post, rfl, hn2, by simpa using h5⟩⟩
  · rintro ⟨pre, mid, post, rfl, hi, h1, h2⟩
    obtain ⟨a, u, rfl, hn1, h1⟩ := wordUpTo_iff.1 h1
    obtain ⟨v, b, rfl, hn2, h2⟩ := wordFrom_iff.1 h2
    refine ⟨_, a, u ++ (mid ++ v), b, .many (toks_star_end ht hb), by simp, ?_, fun _ => ⟨by simpa using h1, by simpa using h2⟩⟩
    refine .many hn1 (instance_append.2 ⟨_, _, rfl, hi, ?_⟩)
    have := Instance.many (eqv := CaseEq) hn2 .nil
    simpa using this

/-- **C110 (exact).** What `*x*` matches for any `x`: the texts that contain an instance of `x` such that on its line
there is a letter, digit or underscore not after its first character, and one not before its last. -/
theorem C110_contains_exact (hE : FoldsApart E) (hl : ∀ c ∈ lit, c.toNat < 128) {ts : List PTok} (ht : Toks lit ts)
    (hb : ts.getLast? ≠ some (.lit '\\')) (h : Ready E (.expr .EQ f [.str ('*' :: (lit ++ ['*'])) p] pos) m)
    (hp : Plain d f) :
    Accepts E m d ↔ ∃ s t, ScalarUnder E d f s ∧ TextOf E s t ∧ ∃ pre mid post, t = pre ++ mid ++ post ∧
      Instance CaseEq ts mid ∧ WordUpTo pre (mid ++ post) ∧ WordFrom (pre ++ mid) post := by
  have hl' : ∀ c ∈ '*' :: (lit ++ ['*']), c.toNat < 128 := by
    intro c hc
    simp only [List.mem_cons, List.mem_append, List.not_mem_nil, or_false] at hc
    rcases hc with rfl | hc | rfl
    · decide
    · exact hl c hc
    · decide
  rw [C35_wildcards hE hl' h hp]
  simp only [occurs_star_iff ht hb]

-- `*C#*` finds `C#` in `"C# code"`, as there is a word after it, but not in `"C#"` or `"C#\ncode"`
example : WordUpTo [] "C# code".toList ∧ WordFrom "C#".toList " code".toList ∧ ¬ WordFrom "C#".toList [] := by
  refine ⟨⟨[], [], rfl, by simp, .inr ⟨'C', rfl, by unfold WordChar; decide⟩⟩,
    ⟨" code".toList, [], by simp, by decide, .inl ⟨'c', by decide, by unfold WordChar; decide⟩⟩, ?_⟩
  rintro ⟨u, b, h, -, ⟨c, hc, -⟩ | ⟨c, hc, hw⟩⟩
  · obtain ⟨rfl, -⟩ := List.append_eq_nil_iff.1 h.symm
    cases hc
  · cases hc
    revert hw
    unfold WordChar
    decide
example : ¬ WordFrom "C#".toList "\ncode".toList := by
  rintro ⟨u, b, h, hn, ⟨c, hc, -⟩ | ⟨c, hc, hw⟩⟩
  · cases u with
    | nil => cases hc
    | cons x u =>
      have h : '\n' :: "code".toList = x :: (u ++ b) := h
      obtain rfl := (List.cons.inj h).1
      simp at hn
  · cases hc
    revert hw
    unfold WordChar
    decide

end Aql
