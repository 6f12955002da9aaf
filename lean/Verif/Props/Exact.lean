import Verif.Props.Readme
import Verif.Props.Strings
/-!
Properties C36 (exact form) and C75: equality with a string. README.md says that `field:"value"`
"searches for the exact string value provided" and shows a path query with `"here!"`.
-/

namespace Aql

open Spec

variable {E : Env}

/-- The text begins and ends with a word character. -/
def WordEnds (s : Str) : Prop :=
  (∃ c, s.head? = some c ∧ WordChar c) ∧ ∃ c, s.getLast? = some c ∧ WordChar c

/-- ASCII, and without the characters that are special in string literals with wildcards. -/
def PlainLit (s : Str) : Prop := (∀ c ∈ s, c.toNat < 128) ∧ '\\' ∉ s ∧ '?' ∉ s ∧ '*' ∉ s

/-- A plain literal occurs in the text equal to it iff both its ends are word characters. -/
theorem occurs_self {lit : Str} (hp : PlainLit lit) : Occurs CaseEq True lit lit ↔ WordEnds lit := by
  constructor
  · rintro ⟨ts, pre, mid, post, h1, h2, h3, h4⟩
    obtain rfl := h1.unique (toks_plain hp.2)
    have hlen := instance_length h3 (by simp)
    rw [List.length_map] at hlen
    have hl2 := congrArg List.length h2
    simp only [List.length_append] at hl2
    obtain rfl : pre = [] := List.length_eq_zero_iff.1 (by omega)
    obtain rfl : post = [] := List.length_eq_zero_iff.1 (by omega)
    rw [List.append_nil, List.nil_append] at h2
    subst h2
    obtain ⟨ha, hb⟩ := h4 trivial
    simp only [WordBoundary, List.getLast?_nil, List.head?_nil, reduceCtorEq, false_and, exists_false,
      false_iff, iff_false, List.append_nil, List.nil_append, not_not] at ha hb
    exact ⟨ha, hb⟩
  · rintro ⟨h1, h2⟩
    refine ⟨_, [], lit, [], toks_plain hp.2, by simp, instance_self (toks_plain hp.2) hp.2.1 hp.1, fun _ => ?_⟩
    simp only [WordBoundary, List.getLast?_nil, List.head?_nil, reduceCtorEq, false_and, exists_false,
      false_iff, iff_false, List.append_nil, List.nil_append, not_not]
    exact ⟨h1, h2⟩

/-- **C36, exactly.** A plain ASCII literal matches the document with the text equal to it iff the
literal begins and ends with a word character. -/
theorem C36_self_match_exact (hE : FoldsApart E) {raw k rawt lit : Str}
    (hk : E.unescape raw = some k) (ht : E.unescape rawt = some lit) (hp : PlainLit lit)
    (h : Ready E (.expr .EQ [k] [.str lit p] pos) m) :
    Accepts E m (.obj [(raw, .str rawt)]) ↔ WordEnds lit := by
  rw [C35_wildcards hE hp.1 h plain_single, ← occurs_self hp]
  constructor
  · rintro ⟨s, t, hs, htx, ho⟩
    rw [single_str hk] at hs
    subst hs
    cases htx with
    | str htx => rw [ht] at htx; cases htx; exact ho
  · intro ho
    exact ⟨_, _, (single_str hk _ _).2 rfl, .str ht, ho⟩

/-- No wildcard is escaped: no backslash stands before one. -/
def NoEscape (s : Str) : Prop := ∀ a x b, s = a ++ '\\' :: x :: b → x ≠ '?' ∧ x ≠ '*'

theorem NoEscape.of_none {s : Str} (h : '\\' ∉ s) : NoEscape s := by
  rintro a x b rfl
  simp at h

theorem NoEscape.tail {c : Char} {s : Str} (h : NoEscape (c :: s)) : NoEscape s := by
  rintro a x b rfl
  exact h (c :: a) x b rfl

theorem NoEscape.right {a b : Str} (h : NoEscape (a ++ b)) : NoEscape b := by
  rintro u x v rfl
  exact h (a ++ u) x v (by simp)

theorem NoEscape.left {a b : Str} (h : NoEscape (a ++ b)) : NoEscape a := by
  rintro u x v rfl
  exact h u x (v ++ b) (by simp)

theorem NoEscape.not_one {s : Str} (h : NoEscape ('\\' :: '?' :: s)) : False := (h [] '?' s rfl).1 rfl

theorem NoEscape.not_many {s : Str} (h : NoEscape ('\\' :: '*' :: s)) : False := (h [] '*' s rfl).2 rfl

theorem NoEscape.start {c : Char} {s : Str} (h : NoEscape (c :: s)) :
    ¬ (c = '\\' ∧ (s.head? = some '?' ∨ s.head? = some '*')) := by
  rintro ⟨rfl, hs⟩
  cases s with
  | nil => simp at hs
  | cons x s =>
    have := h [] x s rfl
    simp only [List.head?_cons, Option.some.injEq] at hs
    rcases hs with rfl | rfl
    · exact this.1 rfl
    · exact this.2 rfl

theorem toks_join {a b : Str} {ta tb : List PTok} (ha : Toks a ta) (hn : NoEscape (a ++ b)) (hb : Toks b tb) :
    Toks (a ++ b) (ta ++ tb) := by
  induction ha with
  | nil => exact hb
  | escOne => exact hn.not_one.elim
  | escMany => exact hn.not_many.elim
  | one _ ih => exact .one (ih hn.tail)
  | many _ ih => exact .many (ih hn.tail)
  | char h1 h2 _ _ ih => exact .char h1 h2 hn.start (ih hn.tail)

/-- Every text without escaped wildcards is an instance of itself. -/
theorem instance_own {s : Str} {ts : List PTok} (h : Toks s ts) (hb : NoEscape s) (hl : ∀ c ∈ s, c.toNat < 128) :
    Instance CaseEq ts s := by
  induction h with
  | nil => exact .nil
  | escOne => exact hb.not_one.elim
  | escMany => exact hb.not_many.elim
  | one _ ih => exact .one (by decide) (ih hb.tail (fun c hc => hl c (by simp [hc])))
  | @many s ts _ ih => exact .many (run := ['*']) (by decide) (ih hb.tail (fun c hc => hl c (by simp [hc])))
  | char _ _ _ _ ih => exact .lit (caseEq_refl (hl _ (by simp))) (ih hb.tail (fun c hc => hl c (by simp [hc])))

theorem toks_all_stars {s : Str} (h : ∀ c ∈ s, c = '*') : Toks s (s.map fun _ => .many) := by
  induction s with
  | nil => exact .nil
  | cons c s ih =>
    obtain rfl := h c (by simp)
    exact .many (ih fun c hc => h c (by simp [hc]))

theorem instance_before {eqv : Char → Char → Prop} {ts : List PTok} {x : Str} (h : Instance eqv ts x) (s : Str) :
    Instance eqv (s.map (fun _ => .many) ++ ts) x := by
  induction s with
  | nil => exact h
  | cons c s ih => exact .many (run := []) (by simp) ih

theorem instance_behind {eqv : Char → Char → Prop} {ts : List PTok} {x : Str} (h : Instance eqv ts x) (s : Str) :
    Instance eqv (ts ++ s.map (fun _ => .many)) x := by
  induction h with
  | nil => simpa using instance_before (eqv := eqv) .nil s
  | lit h1 _ ih => exact .lit h1 ih
  | one h1 _ ih => exact .one h1 ih
  | many h1 _ ih => exact .many h1 ih

/-- Neither a star nor a question mark. -/
def solid (c : Char) : Bool := c ≠ '*' ∧ c ≠ '?'

theorem caseEq_solid {c x : Char} (h1 : c ≠ '?') (h2 : c ≠ '*') (he : CaseEq c x) : solid c = true ∧ solid x = true := by
  have key : ∀ y : Char, y.toNat = 42 ∨ y.toNat = 63 → c ≠ y → x ≠ y := by
    rintro y hy hne rfl
    rcases he with ⟨-, rfl | ⟨h3, h3', h4⟩ | ⟨h3, h3', h4⟩⟩ | ⟨h3, -⟩ | ⟨h3, -⟩
    · exact hne rfl
    · have : (97 : Nat) ≤ c.toNat := h3
      have : c.toNat ≤ 122 := h3'
      omega
    · have : (65 : Nat) ≤ c.toNat := h3
      have : c.toNat ≤ 90 := h3'
      omega
    · rw [h3] at hy; exact absurd hy (by decide)
    · rw [h3] at hy; exact absurd hy (by decide)
  simp only [solid, decide_eq_true_eq]
  exact ⟨⟨h2, h1⟩, key '*' (by decide) h2, key '?' (by decide) h1⟩

/-- Every character of the literal that is no wildcard takes one of the text that is none. -/
theorem stars_count {lit mid : Str} {ts : List PTok} (h : Toks lit ts) (hb : NoEscape lit) (hi : Instance CaseEq ts mid) :
    (lit.filter solid).length ≤ (mid.filter solid).length := by
  induction h generalizing mid with
  | nil => simp
  | escOne => exact hb.not_one.elim
  | escMany => exact hb.not_many.elim
  | one _ ih =>
    cases hi with
    | @one x _ xs _ hi =>
      have := ih hb.tail hi
      rw [List.filter_cons_of_neg (by decide)]
      have h2 : (xs.filter solid).length ≤ ((x :: xs).filter solid).length := by
        rw [List.filter_cons]; split <;> simp
      omega
  | many _ ih =>
    cases hi with
    | many _ hi =>
      have := ih hb.tail hi
      rw [List.filter_cons_of_neg (by decide), List.filter_append, List.length_append]
      omega
  | @char c s ts h1 h2 _ _ ih =>
    cases hi with
    | lit he hi =>
      have := ih hb.tail hi
      have hs := caseEq_solid h1 h2 he
      rw [List.filter_cons_of_pos hs.1, List.filter_cons_of_pos hs.2]
      simpa using this

/-- If as many are left, the wildcards take nothing but wildcards: not the first character. -/
theorem solid_first {lit mid : Str} {ts : List PTok} (h : Toks lit ts) (hb : NoEscape lit) (hi : Instance CaseEq ts mid)
    (hn : (mid.filter solid).length ≤ (lit.filter solid).length) {f : Char} (hf : mid.head? = some f) (hs : solid f = true) :
    ∃ c, (lit.filter (· ≠ '*')).head? = some c ∧ solid c = true := by
  induction h generalizing mid with
  | nil => cases hi; cases hf
  | escOne => exact hb.not_one.elim
  | escMany => exact hb.not_many.elim
  | one ht ih =>
    cases hi with
    | @one x _ xs _ hi =>
      have := stars_count ht hb.tail hi
      simp only [List.head?_cons, Option.some.injEq] at hf
      subst hf
      rw [List.filter_cons_of_pos hs, List.filter_cons_of_neg (by decide), List.length_cons] at hn
      omega
  | many ht ih =>
    cases hi with
    | @many run _ xs _ hi =>
      have := stars_count ht hb.tail hi
      rw [List.filter_append, List.filter_cons_of_neg (by decide), List.length_append] at hn
      cases run with
      | nil =>
        rw [List.filter_cons_of_neg (by simp)]
        exact ih hb.tail hi (by simpa using hn) hf
      | cons y run =>
        simp only [List.cons_append, List.head?_cons, Option.some.injEq] at hf
        subst hf
        rw [List.filter_cons_of_pos hs, List.length_cons] at hn
        omega
  | @char c s ts h1 h2 _ _ ih =>
    exact ⟨c, by rw [List.filter_cons_of_pos (by simpa using h2)]; rfl, by simp [solid, h1, h2]⟩

theorem nothing_taken {s m : Str} {ts : List PTok} (h : Toks s ts) (hb : NoEscape s) (hi : Instance CaseEq ts m) (hm : m = []) :
    s.filter (· ≠ '*') = [] := by
  induction h generalizing m with
  | nil => rfl
  | escOne => exact hb.not_one.elim
  | escMany => exact hb.not_many.elim
  | one => cases hi; cases hm
  | many _ ih =>
    cases hi with
    | many _ hi =>
      rw [List.filter_cons_of_neg (by simp)]
      exact ih hb.tail hi (List.append_eq_nil_iff.1 hm).2
  | char => cases hi; cases hm

/-- Nor the last. -/
theorem solid_last {lit mid : Str} {ts : List PTok} (h : Toks lit ts) (hb : NoEscape lit) (hi : Instance CaseEq ts mid)
    (hn : (mid.filter solid).length ≤ (lit.filter solid).length) {l : Char} (hl : mid.getLast? = some l) (hs : solid l = true) :
    ∃ c, (lit.filter (· ≠ '*')).getLast? = some c ∧ solid c = true := by
  have more : ∀ {a : Char} {u : Str} {c : Char}, u.getLast? = some c → (a :: u).getLast? = some c := by
    intro a u c h
    rw [List.getLast?_cons, h]; rfl
  induction h generalizing mid with
  | nil => cases hi; cases hl
  | escOne => exact hb.not_one.elim
  | escMany => exact hb.not_many.elim
  | one ht ih =>
    cases hi with
    | @one x _ xs _ hi =>
      have := stars_count ht hb.tail hi
      rw [List.filter_cons_of_neg (l := _) (a := '?') (by decide)] at hn
      have hx : solid x ≠ true := by
        intro hx
        rw [List.filter_cons_of_pos hx, List.length_cons] at hn
        omega
      rw [List.filter_cons_of_neg hx] at hn
      cases xs with
      | nil => simp at hl; rw [hl] at hx; exact absurd hs hx
      | cons y xs =>
        obtain ⟨c, hc, hc'⟩ := ih hb.tail hi hn (by rwa [List.getLast?_cons_cons] at hl)
        exact ⟨c, by rw [List.filter_cons_of_pos (by decide)]; exact more hc, hc'⟩
  | many ht ih =>
    cases hi with
    | @many run _ xs _ hi =>
      have := stars_count ht hb.tail hi
      rw [List.filter_append, List.filter_cons_of_neg (l := _) (a := '*') (by decide), List.length_append] at hn
      rw [List.filter_cons_of_neg (by simp)]
      cases xs with
      | nil =>
        rw [List.append_nil] at hl
        have : l ∈ run.filter solid := List.mem_filter.2 ⟨List.mem_of_getLast? hl, hs⟩
        have := List.length_pos_of_mem this
        omega
      | cons y xs =>
        exact ih hb.tail hi (by omega) (by rwa [List.getLast?_append_of_ne_nil _ (by simp)] at hl)
  | @char c s ts h1 h2 _ ht ih =>
    cases hi with
    | @lit _ x _ xs he hi =>
      have hsc := caseEq_solid h1 h2 he
      rw [List.filter_cons_of_pos hsc.1, List.filter_cons_of_pos hsc.2, List.length_cons, List.length_cons] at hn
      rw [List.filter_cons_of_pos (by simpa using h2)]
      cases xs with
      | nil =>
        rw [nothing_taken ht hb.tail hi rfl]
        exact ⟨c, rfl, hsc.1⟩
      | cons y xs =>
        obtain ⟨c', hc, hc'⟩ := ih hb.tail hi (by omega) (by rwa [List.getLast?_cons_cons] at hl)
        exact ⟨c', more hc, hc'⟩

theorem filter_solid (s : Str) : (s.filter (· ≠ '*')).filter solid = s.filter solid := by
  rw [List.filter_filter]
  congr 1
  funext c
  simp [solid]
  tauto

theorem first_of_filter {s : Str} {c : Char} (h : s.head? = some c) (hs : solid c = true) : (s.filter solid).head? = some c := by
  cases s with
  | nil => cases h
  | cons x s => cases h; rw [List.filter_cons_of_pos hs]; rfl

theorem last_of_filter {s : Str} {c : Char} (h : s.getLast? = some c) (hs : solid c = true) :
    (s.filter solid).getLast? = some c := by
  rcases List.eq_nil_or_concat s with rfl | ⟨s, x, rfl⟩
  · cases h
  · rw [List.concat_eq_append] at h ⊢
    rw [List.getLast?_concat] at h
    cases h
    rw [List.filter_append, List.filter_cons_of_pos hs, List.filter_nil, List.getLast?_concat]

/-- A literal without escaped wildcards occurs in the text equal to it iff, leaving out the stars, it begins and ends with a word character. -/
theorem occurs_self_stars {lit : Str} (hl : ∀ c ∈ lit, c.toNat < 128) (hb : NoEscape lit) :
    Occurs CaseEq True lit lit ↔ WordEnds (lit.filter (· ≠ '*')) := by
  have nostar : ¬ WordChar '*' := by unfold WordChar; decide
  have noask : ¬ WordChar '?' := by unfold WordChar; decide
  have word : ∀ {c}, WordChar c → solid c = true := by
    intro c hc
    simp only [solid, decide_eq_true_eq]
    constructor
    · rintro rfl; exact nostar hc
    · rintro rfl; exact noask hc
  have gone : ∀ s : Str, (∀ c ∈ s, c = '*') → s.filter (· ≠ '*') = [] := by
    intro s hs
    rw [List.filter_eq_nil_iff]
    intro c hc
    simp [hs c hc]
  constructor
  · rintro ⟨ts, pre, mid, post, h1, h2, h3, h4⟩
    have hc := stars_count h1 hb h3
    have hf := congrArg (List.filter solid) h2
    rw [List.filter_append, List.filter_append] at hf
    have hlen := congrArg List.length hf
    rw [List.length_append, List.length_append] at hlen
    have hpre : pre.filter solid = [] := List.length_eq_zero_iff.1 (by omega)
    have hpost : post.filter solid = [] := List.length_eq_zero_iff.1 (by omega)
    rw [hpre, hpost, List.nil_append, List.append_nil] at hf
    obtain ⟨ha, hz⟩ := h4 trivial
    unfold WordBoundary at ha hz
    have hn1 : ¬ ∃ c, pre.getLast? = some c ∧ WordChar c := by
      rintro ⟨c, hc, hw⟩
      exact (List.filter_eq_nil_iff.1 hpre) c (List.mem_of_getLast? hc) (word hw)
    have hn2 : ¬ ∃ c, post.head? = some c ∧ WordChar c := by
      rintro ⟨c, hc, hw⟩
      exact (List.filter_eq_nil_iff.1 hpost) c (List.mem_of_head? hc) (word hw)
    have hw1 : ∃ c, (mid ++ post).head? = some c ∧ WordChar c := by
      by_contra h0
      exact ha ⟨fun h => absurd h hn1, fun h => absurd h h0⟩
    have hw2 : ∃ c, (pre ++ mid).getLast? = some c ∧ WordChar c := by
      by_contra h0
      exact hz ⟨fun h => absurd h h0, fun h => absurd h hn2⟩
    constructor
    · obtain ⟨f, hfm, hw⟩ := hw1
      have hfm : mid.head? = some f := by
        cases mid with
        | nil => exact absurd ⟨f, by simpa using hfm, hw⟩ hn2
        | cons x mid => simpa using hfm
      obtain ⟨c, hc1, hc2⟩ := solid_first h1 hb h3 (by rw [hf]) hfm (word hw)
      have e := first_of_filter hc1 hc2
      rw [filter_solid, hf, first_of_filter hfm (word hw)] at e
      cases e
      exact ⟨f, hc1, hw⟩
    · obtain ⟨f, hfm, hw⟩ := hw2
      have hfm : mid.getLast? = some f := by
        cases mid with
        | nil => exact absurd ⟨f, by simpa using hfm, hw⟩ hn1
        | cons x mid => rwa [List.getLast?_append_of_ne_nil _ (by simp)] at hfm
      obtain ⟨c, hc1, hc2⟩ := solid_last h1 hb h3 (by rw [hf]) hfm (word hw)
      have e := last_of_filter hc1 hc2
      rw [filter_solid, hf, last_of_filter hfm (word hw)] at e
      cases e
      exact ⟨f, hc1, hw⟩
  · rintro ⟨⟨f, hf, hfw⟩, l, hl', hlw⟩
    -- stars, the rest up to its last character that is no star, stars
    obtain ⟨s1, r, hr, h1, hr1⟩ : ∃ s1 r, lit = s1 ++ r ∧ (∀ c ∈ s1, c = '*') ∧ r.head? = some f := by
      clear hb hl hl'
      induction lit with
      | nil => cases hf
      | cons c s ih =>
        by_cases hc : c = '*'
        · subst hc
          rw [List.filter_cons_of_neg (by simp)] at hf
          obtain ⟨s1, r, rfl, h1, h2⟩ := ih hf
          exact ⟨'*' :: s1, r, rfl, by simpa using h1, h2⟩
        · rw [List.filter_cons_of_pos (by simpa using hc)] at hf
          exact ⟨[], c :: s, rfl, by simp, hf⟩
    obtain ⟨core, s2, hc, h2, hc1⟩ : ∃ core s2, r = core ++ s2 ∧ (∀ c ∈ s2, c = '*') ∧ core.getLast? = some l := by
      rw [hr, List.filter_append, gone s1 h1, List.nil_append] at hl'
      clear hr hr1 hf
      induction r using List.reverseRecOn with
      | nil => cases hl'
      | append_singleton s c ih =>
        by_cases hc : c = '*'
        · subst hc
          rw [List.filter_append, List.filter_cons_of_neg (by simp), List.filter_nil, List.append_nil] at hl'
          obtain ⟨core, s2, rfl, h1, h2⟩ := ih hl'
          refine ⟨core, s2 ++ ['*'], by simp, ?_, h2⟩
          intro c hc
          rcases List.mem_append.1 hc with hc | hc
          · exact h1 c hc
          · exact List.mem_singleton.1 hc
        · rw [List.filter_append, List.filter_cons_of_pos (by simpa using hc), List.filter_nil, List.getLast?_concat] at hl'
          exact ⟨s ++ [c], [], by simp, by simp, by rw [List.getLast?_concat]; exact hl'⟩
    have hcore : core ≠ [] := by rintro rfl; cases hc1
    have hc0 : core.head? = some f := by
      rw [hc, List.head?_append_of_ne_nil _ hcore] at hr1
      exact hr1
    subst hc hr
    have hbc : NoEscape core := hb.right.left
    refine ⟨s1.map (fun _ => .many) ++ (toksOf core ++ s2.map fun _ => .many), s1, core, s2, ?_, by simp, ?_, fun _ => ⟨?_, ?_⟩⟩
    · exact toks_join (toks_all_stars h1) hb (toks_join (toks_toksOf core) hb.right (toks_all_stars h2))
    · exact instance_before (instance_behind (instance_own (toks_toksOf core) hbc fun c hc => hl c (by simp [hc])) s2) s1
    · unfold WordBoundary
      intro h
      obtain ⟨c, hc, hw⟩ := h.2 ⟨f, by rw [List.head?_append_of_ne_nil _ hcore]; exact hc0, hfw⟩
      rw [h1 c (List.mem_of_getLast? hc)] at hw
      exact nostar hw
    · unfold WordBoundary
      intro h
      obtain ⟨c, hc, hw⟩ := h.1 ⟨l, by rw [List.getLast?_append_of_ne_nil _ hcore]; exact hc1, hlw⟩
      rw [h2 c (List.mem_of_head? hc)] at hw
      exact nostar hw

/-- **C36, exactly, with wildcards.** An ASCII literal with any stars and question marks, none of them escaped, matches the
document with the text equal to it iff, leaving out the stars, it begins and ends with a word character. -/
theorem C36_self_match_stars (hE : FoldsApart E) {raw k rawt lit : Str}
    (hk : E.unescape raw = some k) (ht : E.unescape rawt = some lit) (hl : ∀ c ∈ lit, c.toNat < 128) (hb : NoEscape lit)
    (h : Ready E (.expr .EQ [k] [.str lit p] pos) m) :
    Accepts E m (.obj [(raw, .str rawt)]) ↔ WordEnds (lit.filter (· ≠ '*')) := by
  rw [C35_wildcards hE hl h plain_single, ← occurs_self_stars hl hb]
  constructor
  · rintro ⟨s, t, hs, htx, ho⟩
    rw [single_str hk] at hs
    subst hs
    cases htx with
    | str htx => rw [ht] at htx; cases htx; exact ho
  · intro ho
    exact ⟨_, _, (single_str hk _ _).2 rfl, .str ht, ho⟩

/-- `*fo?*od*` does, `*(food` does not. -/
example : WordEnds ("*fo?*od*".toList.filter (· ≠ '*')) ∧ ¬ WordEnds ("*(food".toList.filter (· ≠ '*')) := by
  constructor
  · exact ⟨⟨'f', by decide, by unfold WordChar; decide⟩, ⟨'d', by decide, by unfold WordChar; decide⟩⟩
  · rintro ⟨⟨c, hc, hw⟩, -⟩
    have : c = '(' := by
      have h2 : ("*(food".toList.filter (· ≠ '*')).head? = some '(' := by decide
      rw [h2] at hc
      exact (Option.some.inj hc).symm
    subst this
    revert hw
    unfold WordChar
    decide

/-! ### C75 -/

/-- `path:"lit"` -/
def quotedText (p lit : Str) : Str := p ++ ":\"".toList ++ lit ++ "\"".toList

/-- No character needs an escape in a string literal. -/
def Printable (s : Str) : Prop := ∀ c ∈ s, c ≠ '"' ∧ c ≠ '\\' ∧ 32 ≤ c.toNat

theorem strBody_printable {s : Str} (h : Printable s) : StrBody s s := by
  induction s with
  | nil => exact .nil
  | cons c s ih =>
    obtain ⟨h1, h2, h3⟩ := h c (by simp)
    exact .plain h1 h2 h3 (ih fun x hx => h x (by simp [hx]))

theorem quotedText_laid {p lit : Str} {xs : List Str} (hp : Path E p xs) (hl : Printable lit) :
    ∃ v, unplaced v = .str lit noPosition ∧ Laid E .cmp (.compare p xs [] .EQ [('"' :: (lit ++ ['"']), v)]) (quotedText p lit) := by
  have hw : Ws [] := by decide
  refine ⟨.str lit (posAt [] ('"' :: (lit ++ ['"']))), rfl, ?_⟩
  have := Laid.compare (w1 := []) (w2 := []) (w3 := []) hp .eq
    (.one (.string (strBody_printable hl) rfl)) hw hw hw
  simpa [quotedText] using this

variable (E) in
/-- **C75.** `path:"value"` for a plain printable value: the text gets a matcher, which on a document
whose only value under the path is the string `value` says yes iff the value begins and ends with a
word character. -/
theorem C75_quoted_exact_partial (hE : FoldsApart E) (p lit : Str) (xs : List Str) (hp : Path E p xs) (hl : Printable lit)
    (hpl : PlainLit lit) :
    ∃ m ms, newMatcher E (utf8 (quotedText p lit)) = some (.ok (.ok (m, ms))) ∧
      ∀ d raw, Plain d (withoutStars xs) → E.unescape raw = some lit →
        (∀ s, ScalarUnder E d (withoutStars xs) s ↔ s = .str raw) →
        ∃ r, (m.match E (.valid d)).2 = .result r ∧ (r = true ↔ WordEnds lit) := by
  obtain ⟨v, hv, hlaid⟩ := quotedText_laid hp hl
  have hw : Ws [] := by decide
  have hs : LaidOut E _ (quotedText p lit) := ⟨[], _, [], hw, hw, .andOr (.notAnd (.cmpNot hlaid)), by simp⟩
  obtain ⟨m, ms, h⟩ := matcher_of_text hs (exprOk_single _) (by
    rw [msgRun_none]
    intro n hn
    simp only [Cst.tree, comparisons, List.map_cons, List.map_nil, List.mem_singleton] at hn
    subst hn
    rw [messageVisitorFn, exprMessages_none]
    intro v' hv'
    rw [List.mem_singleton.1 hv', hv]
    rfl)
  refine ⟨m, ms, h, fun d raw hd hr hu => ?_⟩
  obtain ⟨r, hr', hi⟩ := answer_of_text hs h (d := d) hd
  refine ⟨r, hr', ?_⟩
  rw [hi, ← occurs_self hpl]
  simp only [Cst.tree, Sat, List.map_cons, List.map_nil, List.mem_singleton, exists_eq_left, hv, EqHolds,
    strHolds_ascii hE hpl.1]
  constructor
  · rintro ⟨s, hs, t, ht, ho⟩
    rw [hu] at hs
    subst hs
    cases ht with
    | str ht => rw [hr] at ht; cases ht; exact ho
  · intro ho
    exact ⟨_, (hu _).2 rfl, _, .str hr, ho⟩

/-! ### The worked examples of README.md -/

/-- Documented behaviour of jsonparser: a string without escapes is itself. -/
def UnescapesPlain (E : Env) : Prop := ∀ s, Printable s → E.unescape s = some s

theorem piece_ascii (s : Str) (h : s ≠ [] ∧ ∀ c ∈ s, c.toNat < 128 ∧ AsciiField c) : Piece E s s :=
  .bare h.1 fun c hc => (fieldChar_ascii (h.2 c hc).1).2 (h.2 c hc).2

/-- The document of the section "Paths". -/
def pathsDoc : Json :=
  .obj [("level1".toList, .obj [("level2".toList, .obj [("level3".toList, .str "here!".toList)])])]

theorem firstMember_unique {ms : List (Str × Json)} {k : Str} {v w : Json} (h : FirstMember E ms k v)
    (h' : FirstMember E ms k w) : v = w := by
  rw [← getMember_iff] at h h'
  rw [h] at h'
  exact Option.some.inj h'

theorem single_nested {raw k k' : Str} {path : List Str} {ms : List (Str × Json)} {v : Json}
    (hk : E.unescape raw = some k) :
    Resolves E (.obj [(raw, .obj ms)]) (k :: k' :: path) v ↔ Resolves E (.obj ms) (k' :: path) v := by
  have hf : FirstMember E [(raw, .obj ms)] k (.obj ms) := ⟨[], raw, [], rfl, hk, by simp⟩
  constructor
  · intro h
    cases h with
    | inObject h1 h2 => cases firstMember_unique hf h1; exact h2
    | inArray h1 => cases firstMember_unique hf h1
  · exact .inObject hf

/-- The answer of the matcher of a text on a document. -/
def Answers (E : Env) (s : Str) (d : Json) (r : Bool) : Prop :=
  ∃ m ms, newMatcher E (utf8 s) = some (.ok (.ok (m, ms))) ∧ (m.match E (.valid d)).2 = .result r

/-- **C75, refuted.** The example of the section "Paths", `level1.level2.level3:"here!"`, is printed
with the answer true and answered with false: `!` is not a word character. -/
theorem C75_paths_example_refuted (hE : FoldsApart E) (hu : UnescapesPlain E) :
    Answers E "level1.level2.level3:\"here!\"".toList pathsDoc false := by
  have hp : Path E "level1.level2.level3".toList ["level1".toList, "level2".toList, "level3".toList] :=
    .cons (piece_ascii "level1".toList (by decide)) (.cons (piece_ascii "level2".toList (by decide))
      (.one (piece_ascii "level3".toList (by decide))))
  obtain ⟨m, ms, h, hm⟩ := C75_quoted_exact_partial E hE _ "here!".toList _ hp (by unfold Printable; decide) (by unfold PlainLit; decide)
  have k : ∀ s ∈ ["level1".toList, "level2".toList, "level3".toList, "here!".toList], E.unescape s = some s :=
    fun s hs => hu s (by revert s; unfold Printable; decide)
  obtain ⟨r, hr, hi⟩ := hm pathsDoc "here!".toList
    (by exact ⟨_, _, rfl, by simp [pathsDoc]⟩) (k _ (by simp)) (by
      intro s
      have e : withoutStars ["level1".toList, "level2".toList, "level3".toList] =
        ["level1".toList, "level2".toList, "level3".toList] := by decide
      rw [e, ScalarUnder, pathsDoc]
      simp only [single_nested (k _ (List.mem_cons_self ..)), single_nested (k "level2".toList (by simp))]
      exact single_scalar (k "level3".toList (by simp)) (s := .str "here!".toList) trivial s)
  refine ⟨m, ms, h, ?_⟩
  rw [hr]
  cases r
  · rfl
  · obtain ⟨-, c, hc, hw⟩ := hi.1 rfl
    have : c = '!' := by simpa using hc.symm
    subst this
    revert hw; rw [WordChar]; decide

/-- A quoted string as a token. -/
def strTok (s : Str) : Str × Val := ('"' :: (s ++ ['"']), .str s (posAt [] ('"' :: (s ++ ['"']))))

/-- The number 1 as a token. -/
def oneTok : Str × Val := ("1".toList, .int 1 "1".toList (posAt [] "1".toList))

theorem lit_strTok (s : Str) (h : Printable s) : Lit E [] (strTok s).1 (strTok s).2 :=
  .string (strBody_printable h) rfl

theorem lit_oneTok : Lit E [] oneTok.1 oneTok.2 :=
  .int (m := []) (a := "1".toList) (.inl rfl) (by decide) (by unfold AllDigits; decide) rfl
    (((parseInt64_iff "1".toList 1).1 (by decide +kernel)).1) (by decide) (by decide)

/-- `path:value` with optional white space in front of the value. -/
theorem laid_eq {p : Str} {xs : List Str} (l : Str × Val) (w : Str) (hw : Ws w) (hp : Path E p xs)
    (hl : Lit E [] l.1 l.2) : Laid E .cmp (.compare p xs [] .EQ [l]) (p ++ ':' :: (w ++ l.1)) := by
  have := Laid.compare (w1 := []) (w2 := w) (w3 := []) hp .eq (.one hl) (by decide) hw (by decide)
  simpa using this

theorem sat_str (hE : FoldsApart E) {d : Json} {f : List Str} {raw lit : Str} {p pos : Pos}
    (hs : ScalarUnder E d f (.str raw)) (hr : E.unescape raw = some lit) (hp : PlainLit lit) (hw : WordEnds lit) :
    Sat E d (.expr .EQ f [.str lit p] pos) := by
  simp only [Sat, List.mem_singleton, exists_eq_left, EqHolds, strHolds_ascii hE hp.1]
  exact ⟨_, hs, _, .str hr, (occurs_self hp).2 hw⟩

theorem sat_one {d : Json} {f : List Str} {p pos : Pos} (hs : ScalarUnder E d f (.num "1".toList)) :
    Sat E d (.expr .EQ f [.int 1 "1".toList p] pos) := by
  simp only [Sat, List.mem_singleton, exists_eq_left, EqHolds]
  refine ⟨_, hs, toF64 1, _, .num ?_, .int, ?_⟩
  · rw [← parseFloat_iff]
    unfold parseFloat
    rw [show decimalValue "1".toList = some 1 by decide +kernel]
    have : toF64 1 = .fin 1 := by decide +kernel
    simp [this]
  · rw [← F64.eq_iff]; decide +kernel

/-- `path:"s"` and `path:1` as tokens. -/
def strCmp (p : Str) (xs : List Str) (s : Str) : Cst := .compare p xs [] .EQ [strTok s]

def oneCmp (p : Str) (xs : List Str) : Cst := .compare p xs [] .EQ [oneTok]

/-- Tokens of comparisons of strings with one literal or with 1. -/
inductive Basic : Cst → Prop
  | str {p xs s} : Basic (strCmp p xs s)
  | one {p xs} : Basic (oneCmp p xs)
  | group {c} : Basic c → Basic (.group c)
  | not {b c} : Basic c → Basic (.not b c)
  | and {l r} : Basic l → Basic r → Basic (.and l r)
  | or {l r} : Basic l → Basic r → Basic (.or l r)

theorem Basic.ok {c : Cst} (h : Basic c) : AllOk E c.tree := by
  induction h with
  | str => exact exprOk_single _
  | one => exact exprOk_single _
  | group _ ih => exact ih
  | not _ ih => exact ih
  | and _ _ ih ih' => exact ⟨ih, ih'⟩
  | or _ _ ih ih' => exact ⟨ih, ih'⟩

theorem Basic.quiet {c : Cst} (h : Basic c) : ∀ n ∈ comparisons c.tree, (messageVisitorFn E n).2 = none := by
  induction h with
  | str => simp [strCmp, Cst.tree, comparisons, messageVisitorFn, exprMessages, valMessages, strTok, unplaced]
  | one => simp [oneCmp, Cst.tree, comparisons, messageVisitorFn, exprMessages, valMessages, oneTok, unplaced]
  | group _ ih => exact ih
  | not _ ih => exact ih
  | and _ _ ih ih' =>
    intro n hn
    rcases List.mem_append.1 hn with hn | hn
    · exact ih n hn
    · exact ih' n hn
  | or _ _ ih ih' =>
    intro n hn
    rcases List.mem_append.1 hn with hn | hn
    · exact ih n hn
    · exact ih' n hn

/-- A text with such comparisons answers as its tokens mean. -/
theorem answers_of {c : Cst} {s : Str} (r : Bool) {q : Str} (hc : Laid E .or c q) (hq : s = q) (hb : Basic c)
    {d : Json} (hp : PathsIn (Plain d) c.tree) (h : r = true ↔ Sat E d c.tree) : Answers E s d r := by
  have hc : LaidOut E c s := ⟨[], q, [], by decide, by decide, hc, by simp [hq]⟩
  obtain ⟨m, ms, h'⟩ := matcher_of_text hc hb.ok (msgRun_none.2 hb.quiet)
  obtain ⟨r', hr, hi⟩ := answer_of_text hc h' hp
  refine ⟨m, ms, h', ?_⟩
  rw [← h] at hi
  rw [hr]
  cases r <;> cases r' <;> simp at hi ⊢

/-- README.md, the first example. -/
def textDoc : Json := .obj [("text".toList, .str "hello".toList)]

/-- README.md, "Array Introspection". -/
def innerDoc : Json :=
  .obj [("outer".toList, .obj [("inner".toList,
    .arr [.str "hello".toList, .str "world".toList, .str "from AQL".toList])])]

/-- README.md, arrays of objects. -/
def outerDoc : Json :=
  .obj [("outer".toList, .arr [.obj [("inner".toList, .str "hello".toList)],
    .obj [("inner".toList, .arr [.str "world".toList])], .obj [("inner".toList, .str "from AQL".toList)]])]

/-- README.md, "Boolean Logic". -/
def logicDoc : Json := .obj [("text".toList, .str "AQL".toList), ("number".toList, .num "1".toList)]

theorem wordEnds_of (s : Str) (h : (s.head?.any isWord) = true ∧ (s.getLast?.any isWord) = true) :
    WordEnds s := by
  have : ∀ o : Option Char, o.any isWord = true → ∃ c, o = some c ∧ WordChar c := by
    intro o; cases o <;> simp [isWord_iff]
  exact ⟨this _ h.1, this _ h.2⟩

variable (E) in
/-- **C75, partial.** The other examples of README.md on strings, arrays and boolean logic answer as
printed. -/
theorem C75_readme_examples_partial (hE : FoldsApart E) (hu : UnescapesPlain E) :
    Answers E "text: \"hello\"".toList textDoc true ∧
    Answers E "outer.inner:\"world\"".toList innerDoc true ∧
    Answers E "outer.inner:\"world\"".toList outerDoc true ∧
    Answers E "text:\"AQL\" AND number:1".toList logicDoc true ∧
    Answers E "text:\"Nope\" OR number:1".toList logicDoc true ∧
    Answers E "text:\"AQL\" AND !number:1".toList logicDoc false ∧
    Answers E "(text:\"Nope\" OR text:\"AQL\") AND number:1".toList logicDoc true := by
  have u : ∀ s ∈ ["text".toList, "number".toList, "outer".toList, "inner".toList, "hello".toList, "world".toList,
      "from AQL".toList, "AQL".toList], E.unescape s = some s :=
    fun s hs => hu s (by revert s; unfold Printable; decide)
  have pr : ∀ s ∈ ["hello".toList, "world".toList, "AQL".toList, "Nope".toList], Printable s := by
    unfold Printable; decide
  have pl : ∀ s ∈ ["hello".toList, "world".toList, "AQL".toList], PlainLit s := by unfold PlainLit; decide
  have hw : Ws [] := by decide
  have hsp : Space [' '] := by decide
  have pt : Path E "text".toList ["text".toList] := .one (piece_ascii "text".toList (by decide))
  have pn : Path E "number".toList ["number".toList] := .one (piece_ascii "number".toList (by decide))
  have po : Path E "outer.inner".toList ["outer".toList, "inner".toList] :=
    .cons (piece_ascii "outer".toList (by decide)) (.one (piece_ascii "inner".toList (by decide)))
  have we : ∀ s ∈ ["hello".toList, "world".toList, "AQL".toList], WordEnds s :=
    fun s hs => wordEnds_of s (by revert s; decide)
  -- values under the paths
  have st : ScalarUnder E textDoc ["text".toList] (.str "hello".toList) :=
    (single_str (u _ (by simp)) _ _).2 rfl
  have si : ScalarUnder E innerDoc ["outer".toList, "inner".toList] (.str "world".toList) :=
    ⟨trivial, .inr ⟨_, (single_nested (u _ (by simp))).2 ((single_resolves (u _ (by simp)) _ _).2 rfl), by simp⟩⟩
  have so : ScalarUnder E outerDoc ["outer".toList, "inner".toList] (.str "world".toList) :=
    ⟨trivial, .inr ⟨[.str "world".toList], .inArray ⟨[], _, [], rfl, u _ (by simp), by simp⟩
      (List.mem_cons_of_mem _ List.mem_cons_self) ((single_resolves (u _ (by simp)) _ _).2 rfl), by simp⟩⟩
  have sl : ScalarUnder E logicDoc ["text".toList] (.str "AQL".toList) :=
    ⟨trivial, .inl (.last ⟨[], _, _, rfl, u _ (by simp), by simp⟩)⟩
  have sn : ScalarUnder E logicDoc ["number".toList] (.num "1".toList) :=
    ⟨trivial, .inl (.last ⟨[("text".toList, .str "AQL".toList)], _, [], rfl, u _ (by simp), by
      intro p hp
      rw [List.mem_singleton.1 hp]
      exact ⟨_, u _ (by simp), by decide⟩⟩)⟩
  have e1 : withoutStars ["text".toList] = ["text".toList] := by decide
  have e2 : withoutStars ["number".toList] = ["number".toList] := by decide
  have e3 : withoutStars ["outer".toList, "inner".toList] = ["outer".toList, "inner".toList] := by decide
  -- comparisons
  let tx := strCmp "text".toList ["text".toList]
  let ou := strCmp "outer.inner".toList ["outer".toList, "inner".toList] "world".toList
  let nu := oneCmp "number".toList ["number".toList]
  have ct : ∀ s ∈ ["hello".toList, "AQL".toList, "Nope".toList], ∀ w, Ws w →
      Laid E .cmp (tx s) ("text".toList ++ ':' :: (w ++ (strTok s).1)) :=
    fun s hs w hw => laid_eq _ w hw pt (lit_strTok s (pr s (by revert s; decide)))
  have co : Laid E .cmp ou ("outer.inner".toList ++ ':' :: ([] ++ (strTok "world".toList).1)) :=
    laid_eq _ [] hw po (lit_strTok _ (pr _ (by simp)))
  have cn : Laid E .cmp nu ("number".toList ++ ':' :: ([] ++ oneTok.1)) := laid_eq _ [] hw pn lit_oneTok
  have pd : ∀ (ms : List (Str × Json)) (k : Str) (f : List Str), Plain (.obj ms) (k :: f) :=
    fun ms k f => ⟨_, _, rfl, by simp⟩
  have mt : ∀ ms s, PathsIn (Plain (.obj ms)) (tx s).tree := fun ms s => by
    change Plain _ (withoutStars _); rw [e1]; exact pd _ _ _
  have mo : ∀ ms, PathsIn (Plain (.obj ms)) ou.tree := fun ms => by
    change Plain _ (withoutStars _); rw [e3]; exact pd _ _ _
  have mn : ∀ ms, PathsIn (Plain (.obj ms)) nu.tree := fun ms => by
    change Plain _ (withoutStars _); rw [e2]; exact pd _ _ _
  have q1 : Sat E textDoc (tx "hello".toList).tree := by
    change Sat E _ (.expr .EQ (withoutStars _) [.str "hello".toList noPosition] noPosition)
    rw [e1]; exact sat_str hE st (u _ (by simp)) (pl _ (by simp)) (we _ (by simp))
  have q2 : Sat E innerDoc ou.tree := by
    change Sat E _ (.expr .EQ (withoutStars _) [.str "world".toList noPosition] noPosition)
    rw [e3]; exact sat_str hE si (u _ (by simp)) (pl _ (by simp)) (we _ (by simp))
  have q3 : Sat E outerDoc ou.tree := by
    change Sat E _ (.expr .EQ (withoutStars _) [.str "world".toList noPosition] noPosition)
    rw [e3]; exact sat_str hE so (u _ (by simp)) (pl _ (by simp)) (we _ (by simp))
  have q4 : Sat E logicDoc (tx "AQL".toList).tree := by
    change Sat E _ (.expr .EQ (withoutStars _) [.str "AQL".toList noPosition] noPosition)
    rw [e1]; exact sat_str hE sl (u _ (by simp)) (pl _ (by simp)) (we _ (by simp))
  have q5 : Sat E logicDoc nu.tree := by
    change Sat E _ (.expr .EQ (withoutStars _) [.int 1 "1".toList noPosition] noPosition)
    rw [e2]; exact sat_one sn
  have ln : Laid E .and nu _ := .notAnd (.cmpNot cn)
  have la : ∀ s (hs : s ∈ ["hello".toList, "AQL".toList, "Nope".toList]), Laid E .not (tx s) _ :=
    fun s hs => .cmpNot (ct s hs [] hw)
  refine ⟨?_, ?_, ?_, ?_, ?_, ?_, ?_⟩
  · exact answers_of true (.andOr (.notAnd (.cmpNot (ct _ (by simp) [' '] (by decide))))) (by decide) .str
      (mt _ _) (iff_of_true rfl q1)
  · exact answers_of true (.andOr (.notAnd (.cmpNot co))) (by decide) .str (mo _) (iff_of_true rfl q2)
  · exact answers_of true (.andOr (.notAnd (.cmpNot co))) (by decide) .str (mo _) (iff_of_true rfl q3)
  · exact answers_of true (.andOr (.and (la "AQL".toList (by simp)) ln hsp hsp)) (by decide) (.and .str .one)
      ⟨mt _ _, mn _⟩ (iff_of_true rfl ⟨q4, q5⟩)
  · exact answers_of true (.or (.notAnd (la "Nope".toList (by simp))) (.andOr ln) hsp hsp) (by decide)
      (.or .str .one) ⟨mt _ _, mn _⟩ (iff_of_true rfl (.inr q5))
  · exact answers_of false (.andOr (.and (la "AQL".toList (by simp)) (.notAnd (.bang cn hw)) hsp hsp)) (by decide)
      (.and .str (.not .one)) ⟨mt _ _, mn _⟩ (iff_of_false (by simp) (fun h => h.2 q5))
  · exact answers_of true (.andOr (.and (.cmpNot (.group (.or (.notAnd (la "Nope".toList (by simp)))
      (.andOr (.notAnd (la "AQL".toList (by simp)))) hsp hsp) hw hw)) ln hsp hsp)) (by decide)
      (.and (.group (.or .str .str)) .one) ⟨⟨mt _ _, mt _ _⟩, mn _⟩ (iff_of_true rfl ⟨.inr q4, q5⟩)

-- the hypotheses hold of the example environment
example : FoldsApart testEnv ∧ UnescapesPlain testEnv := ⟨fun _ h _ _ => h, fun _ h => if_neg fun hs => (h _ hs).2.1 rfl⟩

/-! #### The program of the section "Usage" -/

/-- README.md, "Usage". -/
def usageDoc : Json :=
  .obj [("date".toList, .str "1970-01-02".toList), ("number".toList, .num "2".toList),
    ("name".toList, .str "Andy".toList), ("description".toList, .str "大懒虫".toList)]

/-- A day as a token. -/
def dayTok (s : Str) (i : Int) : Str × Val := (s, .time s i true (posAt [] s))

theorem dateText_of (a b c : Str) (h : AllDigits a ∧ a.length = 4 ∧ AllDigits b ∧ b.length = 2 ∧ AllDigits c ∧ c.length = 2) :
    DateText (a ++ '-' :: (b ++ '-' :: c)) ⟨digitsValue a, digitsValue b, digitsValue c⟩ :=
  ⟨a, b, c, h.1, h.2.1, h.2.2.1, h.2.2.2.1, h.2.2.2.2.1, h.2.2.2.2.2, rfl, rfl, rfl, rfl⟩

theorem lit_day (a b c : Str) (h : AllDigits a ∧ a.length = 4 ∧ AllDigits b ∧ b.length = 2 ∧ AllDigits c ∧ c.length = 2)
    (hv : (⟨digitsValue a, digitsValue b, digitsValue c⟩ : Date).Valid) :
    Lit E [] (a ++ '-' :: (b ++ '-' :: c))
      (dayTok (a ++ '-' :: (b ++ '-' :: c)) (dayNumber (digitsValue a) (digitsValue b) (digitsValue c) * dayNanos)).2 :=
  .day ⟨_, dateText_of a b c h, hv, _, dayCount_exists hv, rfl⟩

variable (E) in
/-- **C75.** The program of the section "Usage" prints true, if dateparse reads `1970-01-02` as that
day. -/
theorem C75_usage (hE : FoldsApart E) (hu : UnescapesPlain E)
    (hd : E.dateparse "1970-01-02".toList = some (86400 * 10 ^ 9)) :
    Answers E "name:\"andy\" AND date:><(1970-01-01,1980-01-01)".toList usageDoc true := by
  have u : ∀ s ∈ ["name".toList, "date".toList, "number".toList, "Andy".toList, "1970-01-02".toList],
      E.unescape s = some s := fun s hs => hu s (by revert s; unfold Printable; decide)
  have hw : Ws [] := by decide
  have hsp : Space [' '] := by decide
  have pn : Path E "name".toList ["name".toList] := .one (piece_ascii "name".toList (by decide))
  have pt : Path E "date".toList ["date".toList] := .one (piece_ascii "date".toList (by decide))
  have d1 : Lit E [] "1970-01-01".toList (dayTok "1970-01-01".toList 0).2 :=
    lit_day "1970".toList "01".toList "01".toList (by unfold AllDigits; decide) (by unfold Date.Valid; decide)
  have d2 : Lit E [] "1980-01-01".toList (dayTok "1980-01-01".toList (3652 * dayNanos)).2 :=
    lit_day "1980".toList "01".toList "01".toList (by unfold AllDigits; decide) (by unfold Date.Valid; decide)
  let cn := strCmp "name".toList ["name".toList] "andy".toList
  let cd : Cst := .compare "date".toList ["date".toList] ['>', '<'] .BET
    [dayTok "1970-01-01".toList 0, dayTok "1980-01-01".toList (3652 * dayNanos)]
  have ln : Laid E .cmp cn ("name".toList ++ ':' :: ([] ++ (strTok "andy".toList).1)) :=
    laid_eq _ [] hw pn (lit_strTok _ (by unfold Printable; decide))
  have ld : Laid E .cmp cd ("date".toList ++ ([] ++ ':' :: ([] ++ (['>', '<'] ++ ([] ++
      ('(' :: ([] ++ (("1970-01-01".toList ++ ([] ++ ',' :: ([] ++ "1980-01-01".toList))) ++ ([] ++ [')']))))))))) :=
    .compare pt .bet (.list (by simp) hw (.cons d1 hw hw (.one d2)) hw) hw hw hw
  have hc : LaidOut E (.and cn cd) "name:\"andy\" AND date:><(1970-01-01,1980-01-01)".toList :=
    ⟨[], _, [], hw, hw, .andOr (.and (.cmpNot ln) (.notAnd (.cmpNot ld)) hsp hsp), by decide⟩
  have e1 : withoutStars ["name".toList] = ["name".toList] := by decide
  have e2 : withoutStars ["date".toList] = ["date".toList] := by decide
  have tree : (Cst.and cn cd).tree = .and (.expr .EQ ["name".toList] [.str "andy".toList noPosition] noPosition)
      (.expr .BET ["date".toList] [.time "1970-01-01".toList 0 true noPosition,
        .time "1980-01-01".toList (3652 * dayNanos) true noPosition] noPosition) := by
    change Node.and (.expr .EQ (withoutStars _) _ _) (.expr .BET (withoutStars _) _ _) = _
    rw [e1, e2]; rfl
  obtain ⟨m, ms, h⟩ := matcher_of_text hc (by
      rw [tree]
      refine ⟨exprOk_single _, by simp [ArityOk], by simp [OperandOk, Val.type], ?_, by simp, ?_⟩
      · simp [Val.toStr]
      · intro a b _ he
        simp only [List.cons.injEq, and_true] at he
        obtain ⟨rfl, rfl⟩ := he
        exact .inl ⟨_, _, _, _, _, _, _, _, rfl, rfl, by decide⟩) (by
      rw [tree, msgRun_none]
      simp [comparisons, messageVisitorFn, exprMessages, valMessages])
  have pd : ∀ k, Plain usageDoc [k] := fun k => plain_single
  obtain ⟨r, hr, hi⟩ := answer_of_text hc h (d := usageDoc) (by rw [tree]; exact ⟨pd _, pd _⟩)
  refine ⟨m, ms, h, ?_⟩
  rw [hr, hi.2]
  rw [tree]
  have sd : ScalarUnder E usageDoc ["date".toList] (.str "1970-01-02".toList) :=
    ⟨trivial, .inl (.last ⟨[], _, _, rfl, u _ (by simp), by simp⟩)⟩
  have sn : ScalarUnder E usageDoc ["name".toList] (.str "Andy".toList) :=
    ⟨trivial, .inl (.last ⟨[("date".toList, .str "1970-01-02".toList), ("number".toList, .num "2".toList)], _, _, rfl,
      u _ (by simp), by
        intro p hp
        simp only [List.mem_cons, List.not_mem_nil, or_false] at hp
        rcases hp with rfl | rfl
        · exact ⟨_, u _ (by simp), by decide⟩
        · exact ⟨_, u _ (by simp), by decide⟩⟩)⟩
  constructor
  · simp only [Sat, List.mem_singleton, exists_eq_left, EqHolds, strHolds_ascii hE (lit := "andy".toList) (by decide)]
    refine ⟨_, sn, _, .str (u _ (by simp)), _, [], "Andy".toList, [], toks_plain (by decide), by simp, ?_, fun _ => ?_⟩
    · exact .lit (.inl (by decide)) (.lit (.inl (by decide)) (.lit (.inl (by decide)) (.lit (.inl (by decide)) .nil)))
    · rw [← isBoundary_iff, ← isBoundary_iff]; decide +kernel
  · refine ⟨_, _, rfl, _, sd, .inr ⟨_, _, _, _, _, _, _, _, 86400 * 10 ^ 9, 0, 3652 * dayNanos, rfl, rfl,
      ⟨_, _, .str (u _ (by simp)), hd, by decide, by decide, 0, by simp⟩,
      ⟨by decide, by decide, 0, by simp⟩, ⟨by decide, by decide, 0, by simp⟩, by decide, by decide⟩⟩

end Aql
