import Verif.Props.Texts
/-!
C118: patterns are matched by the library of regular expressions, against the texts under the path.
-/

namespace Aql

open Spec

variable {E : Env}

/-- A comparison with one pattern gets a matcher if the library can take the pattern apart. -/
theorem pattern_matcher {p o t u src : Str} {xs : List Str} {op : Op} {pos : Pos} (hp : Path E p xs)
    (ho : OpText o op) (hop : op = .EQ ∨ op = .SIM) (hl : Lit E [] t (.regex u src pos))
    (hsyn : E.reSyntax src ≠ none) :
    ∃ m ms, newMatcher E (utf8 (cmpText p o t)) = some (.ok (.ok (m, ms))) ∧
      Ready E (.expr op (withoutStars xs) [.regex u src noPosition] noPosition) m := by
  have hc := cmpText_laid hp ho hl
  have hok : ExprOk E op [.regex u src noPosition] := by
    rcases hop with rfl | rfl
    · exact exprOk_single _
    · refine ⟨by simp [ArityOk], by simp [OperandOk, Val.type], by simp, ?_, by simp⟩
      simp
  obtain ⟨m, ms, h⟩ := matcher_of_text hc hok (by
    rw [msgRun_none]
    intro n hn
    simp only [Cst.tree, comparisons, List.map_cons, List.map_nil, List.mem_singleton] at hn
    subst hn
    rw [messageVisitorFn, exprMessages_none]
    intro v' hv'
    rw [List.mem_singleton.1 hv']
    obtain ⟨r, hr⟩ := Option.ne_none_iff_exists'.1 hsyn
    simp only [unplaced, valMessages, hr])
  exact ⟨m, ms, h, C59_ready_of_text hc h⟩

theorem accepts_pattern {f : List Str} {op : Op} {u src : Str} {m : Matcher} {d : Json} (hop : op = .EQ ∨ op = .SIM)
    (h : Ready E (.expr op f [.regex u src noPosition] noPosition) m) (hd : Plain d f) :
    Accepts E m d ↔ ∃ x t, ScalarUnder E d f x ∧ TextOf E x t ∧ reMatchString E src t = true := by
  rw [h.accepts hd]
  rcases hop with rfl | rfl <;>
  · simp only [Sat, List.mem_singleton, exists_eq_left, EqHolds]
    constructor
    · rintro ⟨x, hx, t, ht, hm⟩; exact ⟨x, t, hx, ht, hm⟩
    · rintro ⟨x, t, hx, ht, hm⟩; exact ⟨x, hx, t, ht, hm⟩

theorem parseFrag_none {src : Str} (hi : ¬ "(?i)".toList <+: src) : parseFrag src = none := by
  unfold parseFrag
  split
  · rename_i s
    exact absurd ⟨s, rfl⟩ hi
  · rfl

variable (E) in
/-- **C118.** `path:/body/` and `path:~/body/`: yes iff the library matches the pattern, without its slashes
and with every `\/` replaced by `/`, against a text under the path. -/
theorem C118_pattern (p o s u src : Str) (xs : List Str) (op : Op) (hp : Path E p xs) (ho : OpText o op)
    (hop : op = .EQ ∨ op = .SIM) (hs : RegexBody s) (hu : Unescaped ('/' :: (s ++ ['/'])) u) (ht : Trimmed u src)
    (hi : ¬ "(?i)".toList <+: src) (hok : E.reOk src = true) (hsyn : E.reSyntax src ≠ none) :
    ∃ m ms, newMatcher E (utf8 (cmpText p o ('/' :: (s ++ ['/'])))) = some (.ok (.ok (m, ms))) ∧
      ∀ d, Plain d (withoutStars xs) → (Accepts E m d ↔
        ∃ x t, ScalarUnder E d (withoutStars xs) x ∧ TextOf E x t ∧ E.reMatch src t = true) := by
  have hf := parseFrag_none hi
  obtain ⟨m, ms, h, hr⟩ := pattern_matcher hp ho hop
    (.regex hs rfl hu ht (by rw [reCompiles, hf, hok]; rfl)) hsyn
  refine ⟨m, ms, h, fun d hd => ?_⟩
  rw [accepts_pattern hop hr hd]
  simp only [reMatchString, hf]

/-- A body without slashes and backslashes stands for itself. -/
theorem plain_body {s : Str} (hs : ∀ c ∈ s, c ≠ '/' ∧ c ≠ '\\' ∧ c ≠ '\n') :
    RegexBody s ∧ Unescaped ('/' :: (s ++ ['/'])) ('/' :: (s ++ ['/'])) ∧ Trimmed ('/' :: (s ++ ['/'])) s := by
  refine ⟨?_, ?_, ?_⟩
  · induction s with
    | nil => exact .nil
    | cons c s ih =>
      obtain ⟨h1, h2, h3⟩ := hs c (by simp)
      exact .plain h1 h2 h3 (ih fun x hx => hs x (by simp [hx]))
  · have : ∀ t : Str, (∀ c ∈ t, c ≠ '\\') → Unescaped t t := by
      intro t ht
      induction t with
      | nil => exact .nil
      | cons c t ih => exact .other (fun h => absurd h (ht c (by simp))) (ih fun x hx => ht x (by simp [hx]))
    refine this _ fun c hc => ?_
    simp only [List.mem_cons, List.mem_append, List.not_mem_nil, or_false] at hc
    rcases hc with rfl | hc | rfl
    · decide
    · exact (hs c hc).2.1
    · decide
  · refine ⟨1, 1, by simp, ?_, ?_⟩
    · intro h
      cases s with
      | nil => cases h
      | cons c s =>
        cases h
        exact (hs '/' (by simp)).1 rfl
    · intro h
      exact (hs '/' (List.mem_of_getLast? h)).1 rfl

variable (E) in
/-- **C118.** A body without slashes and backslashes is the pattern as it stands. -/
theorem C118_plain_pattern (p o s : Str) (xs : List Str) (op : Op) (hp : Path E p xs) (ho : OpText o op)
    (hop : op = .EQ ∨ op = .SIM) (hs : ∀ c ∈ s, c ≠ '/' ∧ c ≠ '\\' ∧ c ≠ '\n')
    (hi : ¬ "(?i)".toList <+: s) (hok : E.reOk s = true) (hsyn : E.reSyntax s ≠ none) :
    ∃ m ms, newMatcher E (utf8 (cmpText p o ('/' :: (s ++ ['/'])))) = some (.ok (.ok (m, ms))) ∧
      ∀ d, Plain d (withoutStars xs) → (Accepts E m d ↔
        ∃ x t, ScalarUnder E d (withoutStars xs) x ∧ TextOf E x t ∧ E.reMatch s t = true) := by
  obtain ⟨h1, h2, h3⟩ := plain_body hs
  exact C118_pattern E p o s _ s xs op hp ho hop h1 h2 h3 hi hok hsyn

/-- ASCII letters and digits. -/
def IsWordText (w : Str) : Prop := ∀ c ∈ w, ('0' ≤ c ∧ c ≤ '9') ∨ ('a' ≤ c ∧ c ≤ 'z') ∨ ('A' ≤ c ∧ c ≤ 'Z')

/-- `w` is a part of `t`, ignoring case. -/
def Contains (w t : Str) : Prop := ∃ pre mid post, t = pre ++ mid ++ post ∧ List.Forall₂ CaseEq w mid

theorem word_char {c : Char} (h : ('0' ≤ c ∧ c ≤ '9') ∨ ('a' ≤ c ∧ c ≤ 'z') ∨ ('A' ≤ c ∧ c ≤ 'Z')) :
    isMeta c = false ∧ c.toNat < 128 ∧ c ≠ '/' ∧ c ≠ '\\' ∧ c ≠ '\n' := by
  have hn : (48 ≤ c.toNat ∧ c.toNat ≤ 57) ∨ (97 ≤ c.toNat ∧ c.toNat ≤ 122) ∨ (65 ≤ c.toNat ∧ c.toNat ≤ 90) := h
  refine ⟨?_, by omega, ?_, ?_, ?_⟩
  · unfold isMeta
    rw [decide_eq_false_iff_not]
    intro hc
    simp only [List.mem_cons, List.not_mem_nil, or_false] at hc
    rcases hc with rfl | rfl | rfl | rfl | rfl | rfl | rfl | rfl | rfl | rfl | rfl | rfl | rfl | rfl <;>
      revert hn <;> decide
  all_goals
    rintro rfl
    revert hn
    decide

theorem parseAtoms_word {w : Str} (h : IsWordText w) : parseAtoms w = some (w.map Atom.lit) := by
  induction w with
  | nil => rfl
  | cons c w ih =>
    rw [parseAtoms_plain (word_char (h c (by simp))).1, ih fun x hx => h x (by simp [hx])]
    rfl

theorem matchHere_word {eqv : Char → Char → Bool} {w : Str} : ∀ {prev : Option Char} {s : Str},
    matchHere eqv prev (w.map Atom.lit) s = true ↔
      ∃ mid post, s = mid ++ post ∧ List.Forall₂ (fun a b => eqv a b = true) w mid := by
  induction w with
  | nil => intro prev s; simp [matchHere]
  | cons c w ih =>
    intro prev s
    cases s with
    | nil => simp [matchHere]
    | cons x s =>
      simp only [List.map_cons, matchHere, Bool.and_eq_true, ih]
      constructor
      · rintro ⟨h, mid, post, rfl, hm⟩
        exact ⟨x :: mid, post, rfl, .cons h hm⟩
      · rintro ⟨mid, post, he, hm⟩
        cases hm with
        | cons h hm =>
          cases he
          exact ⟨h, _, _, rfl, hm⟩

theorem forall₂_fold (hE : FoldsApart E) {w mid : Str} (hw : IsWordText w) :
    List.Forall₂ (fun a b => foldEq E a b = true) w mid ↔ List.Forall₂ CaseEq w mid := by
  induction w generalizing mid with
  | nil => simp
  | cons c w ih =>
    cases mid with
    | nil => simp
    | cons x mid =>
      simp only [List.forall₂_cons, ih fun y hy => hw y (by simp [hy]),
        foldEq_ascii hE (word_char (hw c (by simp))).2.1]

variable (E) in
/-- **C118.** `path:/(?i)word/`: yes iff the word is, ignoring case, a part of a text under the path, not only
between word boundaries as for `path:"word"`. -/
theorem C118_word (hE : FoldsApart E) (p o w : Str) (xs : List Str) (op : Op) (hp : Path E p xs) (ho : OpText o op)
    (hop : op = .EQ ∨ op = .SIM) (hw : IsWordText w) (hsyn : E.reSyntax ("(?i)".toList ++ w) ≠ none) :
    ∃ m ms, newMatcher E (utf8 (cmpText p o ('/' :: ("(?i)".toList ++ w ++ ['/'])))) = some (.ok (.ok (m, ms))) ∧
      ∀ d, Plain d (withoutStars xs) → (Accepts E m d ↔
        ∃ x t, ScalarUnder E d (withoutStars xs) x ∧ TextOf E x t ∧ Contains w t) := by
  have hf : parseFrag ("(?i)".toList ++ w) = some (w.map Atom.lit) := parseAtoms_word hw
  have hch : ∀ c ∈ "(?i)".toList ++ w, c ≠ '/' ∧ c ≠ '\\' ∧ c ≠ '\n' := by
    intro c hc
    rcases List.mem_append.1 hc with hm | hm
    · clear hc; revert c; decide
    · exact (word_char (hw c hm)).2.2
  obtain ⟨hs, hu, ht⟩ := plain_body hch
  obtain ⟨m, ms, h, hr⟩ := pattern_matcher hp ho hop
    (.regex hs rfl hu ht (by rw [reCompiles, hf]; rfl)) hsyn
  refine ⟨m, ms, h, fun d hd => ?_⟩
  rw [accepts_pattern hop hr hd]
  simp only [reMatchString, hf, searchFrom_iff, matchHere_word, Contains, forall₂_fold hE hw]
  constructor
  · rintro ⟨x, t, hx, ht, pre, _, rfl, mid, post, rfl, hm⟩
    exact ⟨x, _, hx, ht, pre, mid, post, by simp, hm⟩
  · rintro ⟨x, t, hx, ht, pre, mid, post, rfl, hm⟩
    exact ⟨x, _, hx, ht, pre, _, List.append_assoc _ _ _, mid, post, rfl, hm⟩

/-- An environment whose library finds `b+` in texts with a `b`. -/
def plusEnv : Env := { testEnv with
  reOk := fun _ => true
  reMatch := fun src t => decide (src = "b+".toList ∧ 'b' ∈ t)
  reSyntax := fun _ => some (.mk opLiteral []) }

example : Path plusEnv "a".toList ["a".toList] ∧ (∀ c ∈ "b+".toList, c ≠ '/' ∧ c ≠ '\\' ∧ c ≠ '\n') ∧
    ¬ "(?i)".toList <+: "b+".toList ∧ plusEnv.reOk "b+".toList = true ∧ plusEnv.reSyntax "b+".toList ≠ none ∧
    cmpText "a".toList [] ('/' :: ("b+".toList ++ ['/'])) = "a:/b+/".toList ∧
    answerOf plusEnv "a:/b+/".toList (.obj [("a".toList, .str "abc".toList)]) = some true ∧
    answerOf plusEnv "a:/b+/".toList (.obj [("a".toList, .str "b+".toList)]) = some true ∧
    answerOf plusEnv "a:/b+/".toList (.obj [("a".toList, .str "xyz".toList)]) = some false :=
  ⟨.one (piece_ascii "a".toList (by decide)), by decide, by decide, rfl, by simp [plusEnv], by decide,
    by decide +kernel, by decide +kernel, by decide +kernel⟩

example : IsWordText "Bc1".toList ∧ Contains "Bc1".toList "aBC12".toList ∧ ¬ Contains "Bc1".toList "aB1C".toList := by
  refine ⟨by unfold IsWordText; decide, ⟨['a'], "BC1".toList, ['2'], by decide, ?_⟩, ?_⟩
  · exact .cons (by unfold CaseEq; decide) (.cons (by unfold CaseEq; decide) (.cons (by unfold CaseEq; decide) .nil))
  · rintro ⟨pre, mid, post, he, hm⟩
    cases hm with
    | cons h1 hm =>
    cases hm with
    | cons h2 hm =>
    cases hm with
    | cons h3 hm =>
    cases hm with
    | nil =>
    rename_i x y z
    have hl := congrArg List.length he
    simp only [List.length_append, List.length_cons, List.length_nil] at hl
    have : "aB1C".toList.length = 4 := by decide
    rcases pre with _ | ⟨a, _ | ⟨b, pre⟩⟩
    · have e1 : "aB1C".toList = ['a', 'B', '1', 'C'] := by decide
      rw [e1] at he
      injection he with he _
      subst he
      unfold CaseEq at h1
      revert h1
      decide
    · have e1 : "aB1C".toList = ['a', 'B', '1', 'C'] := by decide
      rw [e1] at he
      injection he with _ he
      injection he with _ he
      injection he with he _
      subst he
      unfold CaseEq at h2
      revert h2
      decide
    · simp only [List.length_cons] at hl
      omega

end Aql
