import Verif.Model.Exprs
import Verif.Spec.Glob
/-! The pattern generated for a string literal, and its meaning. -/

namespace Aql

open Spec

/-! ### pattern elements -/

/-- The elements of a pattern, computed. -/
def toksOf : Str → List PTok
  | [] => []
  | '\\' :: '?' :: s => .lit '?' :: toksOf s
  | '\\' :: '*' :: s => .lit '*' :: toksOf s
  | '?' :: s => .one :: toksOf s
  | '*' :: s => .many :: toksOf s
  | c :: s => .lit c :: toksOf s

theorem toks_toksOf (s : Str) : Toks s (toksOf s) := by
  induction s using toksOf.induct with
  | case1 => exact .nil
  | case2 s ih => exact .escOne ih
  | case3 s ih => exact .escMany ih
  | case4 s ih => exact .one ih
  | case5 s ih => exact .many ih
  | case6 c s h1 h2 h3 h4 ih =>
    rw [toksOf]
    · refine .char (fun h => h3 h) (fun h => h4 h) ?_ ih
      rintro ⟨rfl, h | h⟩
      · cases s with
        | nil => cases h
        | cons x s => simp at h; exact h1 s rfl (by rw [h])
      · cases s with
        | nil => cases h
        | cons x s => simp at h; exact h2 s rfl (by rw [h])
    all_goals assumption

theorem Spec.Toks.unique {s : Str} {ts : List PTok} (h : Toks s ts) :
    ∀ {ts'}, Toks s ts' → ts = ts' := by
  induction h with
  | nil => intro ts' h'; cases h'; rfl
  | escOne _ ih =>
    intro ts' h'
    cases h' with
    | escOne h => rw [ih h]
    | char _ _ hn _ => exact absurd ⟨rfl, Or.inl rfl⟩ hn
  | escMany _ ih =>
    intro ts' h'
    cases h' with
    | escMany h => rw [ih h]
    | char _ _ hn _ => exact absurd ⟨rfl, Or.inr rfl⟩ hn
  | one _ ih =>
    intro ts' h'
    cases h' with
    | one h => rw [ih h]
    | char h _ _ _ => exact absurd rfl h
  | many _ ih =>
    intro ts' h'
    cases h' with
    | many h => rw [ih h]
    | char _ h _ _ => exact absurd rfl h
  | char h1 h2 h3 _ ih =>
    intro ts' h'
    cases h' with
    | escOne h => exact absurd ⟨rfl, Or.inl rfl⟩ h3
    | escMany h => exact absurd ⟨rfl, Or.inr rfl⟩ h3
    | one h => exact absurd rfl h1
    | many h => exact absurd rfl h2
    | char _ _ _ h => rw [ih h]

theorem toks_iff (s : Str) (ts : List PTok) : Toks s ts ↔ ts = toksOf s :=
  ⟨fun h => h.unique (toks_toksOf s), fun h => h ▸ toks_toksOf s⟩

/-! ### the generated text parses to the expected atoms -/

/-- The atom of a pattern element. -/
def atomOf : PTok → Atom
  | .lit c => .lit c
  | .one => .any
  | .many => .star

theorem isMeta_punct {c : Char} (h : isMeta c = true) : isPunct c = true := by
  have : c ∈ ['\\', '.', '+', '*', '?', '(', ')', '|', '[', ']', '{', '}', '^', '$'] := by
    simpa [isMeta] using h
  have hall : ∀ c ∈ ['\\', '.', '+', '*', '?', '(', ')', '|', '[', ']', '{', '}', '^', '$'],
      isPunct c = true := by decide
  exact hall c this

theorem isOperator_meta {c : Char} (h : isOperator c = true) : isMeta c = true := by
  have : c ∈ ['(', ')', '|', '[', '.', '*', '+', '?', '{', '^', '$', '\\'] := by
    simpa [isOperator] using h
  have hall : ∀ c ∈ ['(', ')', '|', '[', '.', '*', '+', '?', '{', '^', '$', '\\'],
      isMeta c = true := by decide
  exact hall c this

theorem parseAtoms_meta {c : Char} (h : isMeta c = true) (r : Str) :
    parseAtoms ('\\' :: c :: r) = (parseAtoms r).map (Atom.lit c :: ·) := by
  rw [parseAtoms]
  have hb : c ≠ 'b' := by rintro rfl; revert h; decide
  simp [hb, isMeta_punct h]

theorem parseAtoms_plain {c : Char} (h : isMeta c = false) (r : Str) :
    parseAtoms (c :: r) = (parseAtoms r).map (Atom.lit c :: ·) := by
  have h1 : c ≠ '\\' := by rintro rfl; revert h; decide
  have h2 : c ≠ '.' := by rintro rfl; revert h; decide
  have h3 : isOperator c = false := by
    cases ho : isOperator c with
    | false => rfl
    | true => exact absurd (isOperator_meta ho) (by simp [h])
  rw [parseAtoms]
  · simp [h3]
  · intro c' s' hc; exact absurd hc h1
  · intro s' hc; exact absurd hc h2
  · intro hc; exact absurd hc h2

theorem parseAtoms_quoteMeta (a r : Str) :
    parseAtoms (quoteMeta a ++ r) = (parseAtoms r).map (a.map Atom.lit ++ ·) := by
  induction a with
  | nil => simp [quoteMeta]
  | cons c a ih =>
    rw [quoteMeta]
    split
    · rename_i h
      rw [List.cons_append, List.cons_append, parseAtoms_meta h, ih]
      cases parseAtoms r <;> simp
    · rename_i h
      rw [List.cons_append, parseAtoms_plain (by simpa using h), ih]
      cases parseAtoms r <;> simp

theorem quoteMeta_append (a b : Str) : quoteMeta (a ++ b) = quoteMeta a ++ quoteMeta b := by
  induction a with
  | nil => rfl
  | cons c a ih => simp only [List.cons_append, quoteMeta, ih]; split <;> simp

theorem parseAtoms_star (r : Str) :
    parseAtoms ('.' :: '*' :: '?' :: r) = (parseAtoms r).map (Atom.star :: ·) := by
  rw [parseAtoms]

theorem parseAtoms_any {r : Str} (h : ∀ s, r ≠ '*' :: '?' :: s) :
    parseAtoms ('.' :: r) = (parseAtoms r).map (Atom.any :: ·) := by
  rw [parseAtoms]
  intro s hs; exact absurd hs (h s)

theorem quoteMeta_noStar (a r : Str) (hr : ∀ s, r ≠ '*' :: s) : ∀ s, quoteMeta a ++ r ≠ '*' :: s := by
  intro s
  cases a with
  | nil => simpa [quoteMeta] using hr s
  | cons c a =>
    rw [quoteMeta]
    split
    · simp
    · rename_i h
      intro e
      simp at e
      rw [e.1] at h
      revert h; decide

theorem wcLoop_noStar (s a tail : Str) (ht : ∀ s, tail ≠ '*' :: s) :
    ∀ r, wcLoop a s ++ tail ≠ '*' :: r := by
  induction a, s using wcLoop.induct with
  | case1 a => rw [wcLoop]; exact quoteMeta_noStar a tail ht
  | case2 a s ih => rw [wcLoop]; exact ih
  | case3 a s ih => rw [wcLoop]; exact ih
  | case4 a s ih =>
    rw [wcLoop, List.append_assoc]
    exact quoteMeta_noStar _ _ (by simp)
  | case5 a s ih =>
    rw [wcLoop, List.append_assoc]
    exact quoteMeta_noStar _ _ (by simp)
  | case6 a c s h1 h2 h3 h4 ih =>
    rw [wcLoop]
    · exact ih
    all_goals assumption

theorem parseAtoms_wcLoop (s a tail : Str) (ht : ∀ s, tail ≠ '*' :: s) :
    parseAtoms (wcLoop a s ++ tail) =
      (parseAtoms tail).map ((a.map Atom.lit ++ (toksOf s).map atomOf) ++ ·) := by
  induction a, s using wcLoop.induct with
  | case1 a => rw [wcLoop, parseAtoms_quoteMeta]; simp [toksOf]
  | case2 a s ih => rw [wcLoop, ih, toksOf]; simp [atomOf]
  | case3 a s ih => rw [wcLoop, ih, toksOf]; simp [atomOf]
  | case4 a s ih =>
    rw [wcLoop, List.append_assoc, parseAtoms_quoteMeta, List.cons_append,
      parseAtoms_any (fun r => wcLoop_noStar s [] tail ht _), ih, toksOf]
    cases parseAtoms tail <;> simp [atomOf]
  | case5 a s ih =>
    rw [wcLoop, List.append_assoc, parseAtoms_quoteMeta, List.cons_append, List.cons_append,
      List.cons_append, parseAtoms_star, ih, toksOf]
    cases parseAtoms tail <;> simp [atomOf]
  | case6 a c s h1 h2 h3 h4 ih =>
    rw [wcLoop, ih, toksOf]
    · simp [atomOf]
    all_goals assumption

/-- The atoms of the whole generated pattern. -/
def litAtoms (bounded : Bool) (s : Str) : List Atom :=
  (if bounded then [.wb] else []) ++ (toksOf s).map atomOf ++ (if bounded then [.wb] else [])

variable (E : Env)

theorem parseFrag_stringSearch (lit : Str) :
    parseFrag (stringSearchRegexp E lit) =
      some (litAtoms (isASCII (toLower E lit)) (toLower E lit)) := by
  unfold stringSearchRegexp
  simp only
  generalize toLower E lit = s
  have e1 : ("(?i)".toList : Str) = ['(', '?', 'i', ')'] := by decide
  have e2 : ("\\b".toList : Str) = ['\\', 'b'] := by decide
  rw [e1, e2]
  have hb : ∀ r, parseAtoms ('\\' :: 'b' :: r) = (parseAtoms r).map (Atom.wb :: ·) := by
    intro r; rw [parseAtoms]; simp
  cases isASCII s with
  | true =>
    simp only [if_true, List.cons_append, List.nil_append, parseFrag, hb]
    rw [parseAtoms_wcLoop s [] ['\\', 'b'] (by simp), hb]
    simp [parseAtoms, litAtoms]
  | false =>
    simp only [Bool.false_eq_true, if_false, List.cons_append, List.nil_append, List.append_nil,
      parseFrag]
    have := parseAtoms_wcLoop s [] [] (by simp)
    simp only [List.append_nil] at this
    rw [this]
    simp [parseAtoms, litAtoms]

/-- Every generated pattern compiles. -/
theorem reCompiles_stringSearch (lit : Str) : reCompiles E (stringSearchRegexp E lit) = true := by
  simp [reCompiles, parseFrag_stringSearch]

/-! ### meaning of the atoms -/

/-- The character before the position after `mid`. -/
def lastOr (prev : Option Char) (mid : Str) : Option Char := mid.getLast?.or prev

theorem lastOr_nil (prev : Option Char) : lastOr prev [] = prev := by simp [lastOr]

theorem lastOr_cons (prev : Option Char) (x : Char) (xs : Str) :
    lastOr prev (x :: xs) = lastOr (some x) xs := by
  cases xs with
  | nil => simp [lastOr]
  | cons y ys => simp [lastOr, List.getLast?_cons]

theorem lastOr_append (prev : Option Char) (a b : Str) :
    lastOr prev (a ++ b) = lastOr (lastOr prev a) b := by
  induction a generalizing prev with
  | nil => simp [lastOr_nil]
  | cons x a ih => rw [List.cons_append, lastOr_cons, lastOr_cons, ih]

theorem matchHere_toks (eqv : Char → Char → Bool) (ts : List PTok) (k : List Atom)
    (prev : Option Char) (s : Str) :
    matchHere eqv prev (ts.map atomOf ++ k) s = true ↔
      ∃ mid post, s = mid ++ post ∧ Instance (fun a b => eqv a b = true) ts mid ∧
        matchHere eqv (lastOr prev mid) k post = true := by
  induction ts generalizing prev s with
  | nil =>
    constructor
    · intro h; exact ⟨[], s, rfl, .nil, h⟩
    · rintro ⟨mid, post, rfl, hi, h⟩; cases hi; exact h
  | cons t ts ih =>
    cases t with
    | lit c =>
      cases s with
      | nil =>
        simp only [List.map_cons, atomOf, List.cons_append, matchHere]
        constructor
        · intro h; cases h
        · rintro ⟨mid, post, h, hi, _⟩; cases hi; cases h
      | cons x xs =>
        simp only [List.map_cons, atomOf, List.cons_append, matchHere, Bool.and_eq_true, ih]
        constructor
        · rintro ⟨hc, mid, post, rfl, hi, h⟩
          exact ⟨x :: mid, post, rfl, .lit hc hi, by rw [lastOr_cons]; exact h⟩
        · rintro ⟨mid, post, e, hi, h⟩
          cases hi with
          | lit hc hi =>
            cases e
            exact ⟨hc, _, _, rfl, hi, by rw [lastOr_cons] at h; exact h⟩
    | one =>
      cases s with
      | nil =>
        simp only [List.map_cons, atomOf, List.cons_append, matchHere]
        constructor
        · intro h; cases h
        · rintro ⟨mid, post, h, hi, _⟩; cases hi; cases h
      | cons x xs =>
        simp only [List.map_cons, atomOf, List.cons_append, matchHere, Bool.and_eq_true, ih,
          bne_iff_ne]
        constructor
        · rintro ⟨hc, mid, post, rfl, hi, h⟩
          exact ⟨x :: mid, post, rfl, .one hc hi, by rw [lastOr_cons]; exact h⟩
        · rintro ⟨mid, post, e, hi, h⟩
          cases hi with
          | one hc hi =>
            cases e
            exact ⟨hc, _, _, rfl, hi, by rw [lastOr_cons] at h; exact h⟩
    | many =>
      simp only [List.map_cons, atomOf, List.cons_append]
      induction s generalizing prev with
      | nil =>
        rw [matchHere, ih]
        constructor
        · rintro ⟨mid, post, e, hi, h⟩
          exact ⟨mid, post, e, by simpa using Instance.many (run := []) (by simp) hi, h⟩
        · rintro ⟨mid, post, e, hi, h⟩
          cases hi with
          | @many run ts xs hr hi =>
            simp at e
            obtain ⟨rfl, rfl, rfl⟩ := e
            exact ⟨[], [], rfl, hi, h⟩
      | cons x xs ihs =>
        rw [matchHere, Bool.or_eq_true, Bool.and_eq_true, ih, ihs, bne_iff_ne]
        constructor
        · rintro (⟨mid, post, e, hi, h⟩ | ⟨hx, mid, post, rfl, hi, h⟩)
          · exact ⟨mid, post, e, by simpa using Instance.many (run := []) (by simp) hi, h⟩
          · cases hi with
            | @many run ts ys hr hi =>
              refine ⟨x :: (run ++ ys), post, rfl, ?_, by rw [lastOr_cons]; exact h⟩
              have := Instance.many (run := x :: run) (by simp [hr, Ne.symm hx]) hi
              simpa using this
        · rintro ⟨mid, post, e, hi, h⟩
          cases hi with
          | @many run ts ys hr hi =>
            cases run with
            | nil => exact Or.inl ⟨ys, post, by simpa using e, hi, by simpa using h⟩
            | cons z run =>
              simp at e hr
              obtain ⟨rfl, rfl⟩ := e
              right
              refine ⟨Ne.symm hr.1, run ++ ys, post, by simp, .many hr.2 hi, ?_⟩
              rw [List.cons_append, lastOr_cons] at h
              exact h

theorem searchFrom_iff (eqv : Char → Char → Bool) (as : List Atom) (prev : Option Char) (s : Str) :
    searchFrom eqv as prev s = true ↔
      ∃ pre post, s = pre ++ post ∧ matchHere eqv (lastOr prev pre) as post = true := by
  induction s generalizing prev with
  | nil =>
    rw [searchFrom]
    constructor
    · intro h; exact ⟨[], [], rfl, h⟩
    · rintro ⟨pre, post, e, h⟩
      simp at e; obtain ⟨rfl, rfl⟩ := e; exact h
  | cons x xs ih =>
    rw [searchFrom, Bool.or_eq_true, ih]
    constructor
    · rintro (h | ⟨pre, post, rfl, h⟩)
      · exact ⟨[], _, rfl, h⟩
      · exact ⟨x :: pre, post, rfl, by rw [lastOr_cons]; exact h⟩
    · rintro ⟨pre, post, e, h⟩
      cases pre with
      | nil => left; simp at e; rw [e]; exact h
      | cons y pre =>
        simp at e
        obtain ⟨rfl, rfl⟩ := e
        exact Or.inr ⟨pre, post, rfl, by rw [lastOr_cons] at h; exact h⟩

theorem isWord_iff (c : Char) : isWord c = true ↔ WordChar c := by
  simp [isWord, WordChar, or_assoc]

theorem isBoundary_iff (a b : Str) :
    isBoundary a.getLast? b.head? = true ↔ WordBoundary a b := by
  unfold isBoundary WordBoundary
  have h : ∀ o : Option Char, (o.any isWord = true) ↔ ∃ c, o = some c ∧ WordChar c := by
    intro o; cases o <;> simp [isWord_iff]
  rw [← h, ← h, bne_iff_ne, ne_eq, Bool.eq_iff_iff]

theorem lastOr_none (a : Str) : lastOr none a = a.getLast? := by simp [lastOr]

/-- Matching the generated pattern is the specified occurrence relation. -/
theorem reMatch_stringSearch (lit text : Str) :
    reMatchString E (stringSearchRegexp E lit) text = true ↔
      Occurs (fun a b => foldEq E a b = true) (isASCII (toLower E lit) = true)
        (toLower E lit) text := by
  unfold reMatchString
  rw [parseFrag_stringSearch]
  simp only [searchFrom_iff]
  generalize toLower E lit = s
  unfold Occurs
  simp only [toks_iff]
  cases hA : isASCII s with
  | true =>
    simp only [litAtoms, if_true, List.append_assoc, List.cons_append, List.nil_append]
    constructor
    · rintro ⟨pre, post, rfl, h⟩
      rw [matchHere, Bool.and_eq_true, matchHere_toks] at h
      obtain ⟨hb, mid, post', rfl, hi, h⟩ := h
      rw [matchHere, Bool.and_eq_true] at h
      refine ⟨_, pre, mid, post', rfl, by simp, hi, fun _ => ⟨?_, ?_⟩⟩
      · rw [← isBoundary_iff, ← lastOr_none]; exact hb
      · rw [← isBoundary_iff, ← lastOr_none, lastOr_append]; exact h.1
    · rintro ⟨_, pre, mid, post, rfl, rfl, hi, h⟩
      obtain ⟨h1, h2⟩ := h trivial
      refine ⟨pre, mid ++ post, by simp, ?_⟩
      rw [matchHere, Bool.and_eq_true, matchHere_toks]
      refine ⟨?_, mid, post, rfl, hi, ?_⟩
      · rw [lastOr_none, isBoundary_iff]; exact h1
      · rw [matchHere, Bool.and_eq_true, ← lastOr_append, lastOr_none, isBoundary_iff]
        exact ⟨h2, by rw [matchHere]⟩
  | false =>
    simp only [litAtoms, Bool.false_eq_true, if_false, List.append_nil, List.nil_append,
      false_implies, and_true]
    constructor
    · rintro ⟨pre, post, rfl, h⟩
      have h' := (matchHere_toks (foldEq E) (toksOf s) [] (lastOr none pre) post).1 (by simpa using h)
      obtain ⟨mid, post', rfl, hi, _⟩ := h'
      exact ⟨_, pre, mid, post', rfl, by simp, hi⟩
    · rintro ⟨_, pre, mid, post, rfl, rfl, hi⟩
      refine ⟨pre, mid ++ post, by simp, ?_⟩
      have := (matchHere_toks (foldEq E) (toksOf s) [] (lastOr none pre) (mid ++ post)).2
        ⟨mid, post, rfl, hi, by rw [matchHere]⟩
      simpa using this

end Aql
