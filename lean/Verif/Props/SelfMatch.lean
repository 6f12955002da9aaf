import Verif.Props.Exact
/-!
Property C36: literals with escaped wildcards, and literals outside ASCII.
-/

namespace Aql

open Spec

variable {E : Env}

/-- **C36.** What a literal without wildcards stands for, `\?` and `\*` being the characters themselves, is matched exactly
if it begins and ends with a word character. -/
theorem C36_meant_exact (hE : FoldsApart E) {raw k rawt lit meant : Str}
    (hk : E.unescape raw = some k) (ht : E.unescape rawt = some meant) (hl : ∀ c ∈ lit, c.toNat < 128)
    (hm : Toks lit (meant.map .lit)) (h : Ready E (.expr .EQ [k] [.str lit p] pos) m) :
    Accepts E m (.obj [(raw, .str rawt)]) ↔ WordEnds meant := by
  have ascii : ∀ {lit : Str} {ts}, Toks lit ts → ∀ {meant : Str}, ts = meant.map .lit → (∀ c ∈ lit, c.toNat < 128) →
      Instance CaseEq ts meant := by
    intro lit ts h
    induction h with
    | nil => intro meant he _; cases meant <;> simp at he; exact .nil
    | escOne _ ih =>
      intro meant he hl
      cases meant <;> simp at he
      obtain ⟨rfl, rfl⟩ := he
      exact .lit (caseEq_refl (by decide)) (ih rfl fun c hc => hl c (by simp [hc]))
    | escMany _ ih =>
      intro meant he hl
      cases meant <;> simp at he
      obtain ⟨rfl, rfl⟩ := he
      exact .lit (caseEq_refl (by decide)) (ih rfl fun c hc => hl c (by simp [hc]))
    | one => intro meant he; cases meant <;> simp at he
    | many => intro meant he; cases meant <;> simp at he
    | char _ _ _ _ ih =>
      intro meant he hl
      cases meant <;> simp at he
      obtain ⟨rfl, rfl⟩ := he
      exact .lit (caseEq_refl (hl _ (by simp))) (ih rfl fun c hc => hl c (by simp [hc]))
  rw [C35_wildcards hE hl h plain_single]
  constructor
  · rintro ⟨s, t, hs, htx, ts, pre, mid, post, h1, h2, h3, h4⟩
    rw [single_str hk] at hs
    subst hs
    cases htx with
    | str htx =>
    rw [ht] at htx
    cases htx
    obtain rfl := h1.unique hm
    have hlen := instance_length h3 (by simp)
    rw [List.length_map] at hlen
    have hl2 := congrArg List.length h2
    simp only [List.length_append] at hl2
    obtain rfl : pre = [] := List.length_eq_zero_iff.1 (by omega)
    obtain rfl : post = [] := List.length_eq_zero_iff.1 (by omega)
    rw [List.append_nil, List.nil_append] at h2
    subst h2
    obtain ⟨ha, hb⟩ := h4 trivial
    simp only [WordBoundary, List.getLast?_nil, List.head?_nil, reduceCtorEq, false_and, exists_false,
      false_iff, iff_false, List.append_nil, List.nil_append, not_not] at ha hb
    exact ⟨ha, hb⟩
  · rintro ⟨h1, h2⟩
    refine ⟨_, _, (single_str hk _ _).2 rfl, .str ht, _, [], meant, [], hm, by simp, ascii hm rfl hl, fun _ => ?_⟩
    simp only [WordBoundary, List.getLast?_nil, List.head?_nil, reduceCtorEq, false_and, exists_false,
      false_iff, iff_false, List.append_nil, List.nil_append, not_not]
    exact ⟨h1, h2⟩

/-- `a\*b` stands for a*b, which it matches. -/
example : Toks "a\\*b".toList ("a*b".toList.map .lit) ∧ WordEnds "a*b".toList :=
  ⟨toks_toksOf _, ⟨'a', rfl, by unfold WordChar; decide⟩, ⟨'b', rfl, by unfold WordChar; decide⟩⟩

theorem caseEq_cases {c x : Char} (he : CaseEq c x) : c = x ∨ (solid c = true ∧ solid x = true ∧ x ≠ '\\') := by
  by_cases h1 : c = x
  · exact .inl h1
  right
  have hs : c ≠ '?' ∧ c ≠ '*' ∧ x ≠ '\\' := by
    rcases he with ⟨-, h | ⟨h3, h3', h4⟩ | ⟨h3, h3', h4⟩⟩ | ⟨h3, h4⟩ | ⟨h3, h4⟩
    · exact absurd h h1
    · have h5 : (97 : Nat) ≤ c.toNat := h3
      have h6 : c.toNat ≤ 122 := h3'
      have : '\\'.toNat = 92 := rfl
      refine ⟨?_, ?_, ?_⟩
      · rintro rfl; revert h5; decide
      · rintro rfl; revert h5; decide
      · rintro rfl; omega
    · have h5 : (65 : Nat) ≤ c.toNat := h3
      have h6 : c.toNat ≤ 90 := h3'
      have : '\\'.toNat = 92 := rfl
      refine ⟨?_, ?_, ?_⟩
      · rintro rfl; revert h5; decide
      · rintro rfl; revert h5; decide
      · rintro rfl; omega
    · rw [h3]
      rcases h4 with rfl | rfl <;> decide
    · rw [h3]
      rcases h4 with rfl | rfl <;> decide
  have := caseEq_solid hs.1 hs.2.1 he
  exact ⟨this.1, this.2, hs.2.2⟩

/-- The number of stars and question marks. -/
def wilds (s : Str) : Nat := (s.filter fun c => !solid c).length

theorem wilds_append (a b : Str) : wilds (a ++ b) = wilds a + wilds b := by simp [wilds, List.filter_append]

theorem wilds_cons_solid {c : Char} (h : solid c = true) (s : Str) : wilds (c :: s) = wilds s := by
  unfold wilds
  rw [List.filter_cons_of_neg (by simp [h])]

theorem wilds_cons_wild {c : Char} (h : ¬ solid c = true) (s : Str) : wilds (c :: s) = wilds s + 1 := by
  unfold wilds
  rw [List.filter_cons_of_pos (by simpa using h)]
  rfl

/-- What is matched has the wildcards that are meant, where they are meant. -/
theorem lit_instance {u m : Str} (h : Instance CaseEq (u.map .lit) m) : List.Forall₂ CaseEq u m := by
  induction u generalizing m with
  | nil => cases h; exact .nil
  | cons c u ih =>
    cases h with
    | lit h1 h2 => exact .cons h1 (ih h2)

theorem wilds_same {u m : Str} (h : List.Forall₂ CaseEq u m) : wilds u = wilds m := by
  induction h with
  | nil => rfl
  | @cons a b l m h1 _ ih =>
    rcases caseEq_cases h1 with rfl | ⟨h2, h3, -⟩
    · by_cases hs : solid a = true
      · rw [wilds_cons_solid hs, wilds_cons_solid hs, ih]
      · rw [wilds_cons_wild hs, wilds_cons_wild hs, ih]
    · rw [wilds_cons_solid h2, wilds_cons_solid h3, ih]

theorem wilds_meant {lit : Str} {ts : List PTok} (h : Toks lit ts) :
    ∀ {u : Str}, ts = u.map .lit → wilds lit = wilds u := by
  induction h with
  | nil => intro u he; cases u <;> simp at he; rfl
  | escOne _ ih =>
    intro u he
    cases u <;> simp at he
    obtain ⟨rfl, rfl⟩ := he
    rw [wilds_cons_solid (by decide), wilds_cons_wild (by decide), wilds_cons_wild (by decide), ih rfl]
  | escMany _ ih =>
    intro u he
    cases u <;> simp at he
    obtain ⟨rfl, rfl⟩ := he
    rw [wilds_cons_solid (by decide), wilds_cons_wild (by decide), wilds_cons_wild (by decide), ih rfl]
  | one => intro u he; cases u <;> simp at he
  | many => intro u he; cases u <;> simp at he
  | @char c _ _ h1 h2 _ _ ih =>
    intro u he
    cases u <;> simp at he
    obtain ⟨rfl, rfl⟩ := he
    have hs : solid c = true := by simp [solid, h1, h2]
    rw [wilds_cons_solid hs, wilds_cons_solid hs, ih rfl]

/-- The first escaped wildcard. -/
theorem first_escape {lit : Str} {ts : List PTok} (h : Toks lit ts) : ∀ {u : Str}, ts = u.map .lit → lit ≠ u →
    ∃ p w t t', u = p ++ w :: t ∧ lit = p ++ '\\' :: w :: t' ∧ (∀ c ∈ p, solid c = true) ∧ ¬ solid w = true := by
  induction h with
  | nil => intro u he hne; cases u <;> simp at he; exact absurd rfl hne
  | escOne _ ih =>
    intro u he _
    cases u <;> simp at he
    obtain ⟨rfl, rfl⟩ := he
    exact ⟨[], '?', _, _, rfl, rfl, by simp, by decide⟩
  | escMany _ ih =>
    intro u he _
    cases u <;> simp at he
    obtain ⟨rfl, rfl⟩ := he
    exact ⟨[], '*', _, _, rfl, rfl, by simp, by decide⟩
  | one => intro u he; cases u <;> simp at he
  | many => intro u he; cases u <;> simp at he
  | @char c _ _ h1 h2 _ _ ih =>
    intro u he hne
    cases u <;> simp at he
    obtain ⟨rfl, rfl⟩ := he
    obtain ⟨p, w, t, t', rfl, rfl, h3, h4⟩ := ih rfl (fun h => hne (by rw [h]))
    refine ⟨c :: p, w, t, t', rfl, rfl, ?_, h4⟩
    intro d hd
    rcases List.mem_cons.1 hd with rfl | hd
    · simp [solid, h1, h2]
    · exact h3 d hd

theorem all_backslashes {p p' : Str} (h : List.Forall₂ CaseEq p p') :
    ∀ {x : Char}, x :: p' = p ++ ['\\'] → x = '\\' ∧ ∀ c ∈ p', c = '\\' := by
  induction h with
  | nil => intro x he; simp at he; simpa using he
  | @cons a b q q' h1 _ ih =>
    intro x he
    simp only [List.cons_append, List.cons.injEq] at he
    obtain ⟨rfl, he⟩ := he
    obtain ⟨rfl, hq⟩ := ih he
    rcases caseEq_cases h1 with rfl | ⟨-, -, h⟩
    · exact ⟨rfl, by simpa using hq⟩
    · exact absurd rfl h

theorem split_first_wild {a b c d : Str} {w w' : Char} (h : a ++ w :: b = c ++ w' :: d) (ha : ∀ x ∈ a, solid x = true)
    (hc : ∀ x ∈ c, solid x = true) (hw : ¬ solid w = true) (hw' : ¬ solid w' = true) : a = c := by
  induction a generalizing c with
  | nil =>
    cases c with
    | nil => rfl
    | cons x c =>
      simp only [List.nil_append, List.cons_append, List.cons.injEq] at h
      exact absurd (hc x (by simp)) (h.1 ▸ hw)
  | cons y a ih =>
    cases c with
    | nil =>
      simp only [List.nil_append, List.cons_append, List.cons.injEq] at h
      exact absurd (ha y (by simp)) (h.1 ▸ hw')
    | cons x c =>
      simp only [List.cons_append, List.cons.injEq] at h
      rw [h.1, ih h.2 (fun x hx => ha x (by simp [hx])) (fun x hx => hc x (by simp [hx]))]

theorem forall₂_split {R : Char → Char → Prop} {a b m : Str} (h : List.Forall₂ R (a ++ b) m) :
    ∃ a' b', List.Forall₂ R a a' ∧ List.Forall₂ R b b' ∧ m = a' ++ b' := by
  induction a generalizing m with
  | nil => exact ⟨[], m, .nil, h, rfl⟩
  | cons x a ih =>
    cases h with
    | @cons _ y _ m h1 h2 =>
      obtain ⟨a', b', h3, h4, rfl⟩ := ih h2
      exact ⟨y :: a', b', .cons h1 h3, h4, rfl⟩

/-- A literal all of whose wildcards are escaped, one at least, does not occur in the text equal to it. -/
theorem escaped_never {lit meant : Str} (hm : Toks lit (meant.map .lit)) (hne : lit ≠ meant) :
    ¬ Occurs CaseEq True lit lit := by
  rintro ⟨ts, pre, mid, post, h1, h2, h3, h4⟩
  obtain rfl := h1.unique hm
  have hf := lit_instance h3
  have hcount : wilds lit = wilds mid := (wilds_meant hm rfl).trans (wilds_same hf)
  have hpre : ∀ c ∈ pre, solid c = true := by
    have : wilds pre = 0 := by
      have := congrArg wilds h2
      rw [wilds_append, wilds_append] at this
      omega
    intro c hc
    have h0 := List.filter_eq_nil_iff.1 (List.length_eq_zero_iff.1 this) c hc
    simpa using h0
  obtain ⟨p, w, t, t', rfl, hlit, hp, hw⟩ := first_escape hm rfl hne
  obtain ⟨p', m', hp', hm', rfl⟩ := forall₂_split hf
  cases hm' with
  | @cons _ w' _ m' hww _ =>
  obtain rfl : w = w' := by
    rcases caseEq_cases hww with h | ⟨h, -⟩
    · exact h
    · exact absurd h hw
  have hps : ∀ c ∈ p', solid c = true := by
    have : wilds p' = 0 := by
      rw [← wilds_same hp']
      unfold wilds
      rw [List.length_eq_zero_iff, List.filter_eq_nil_iff]
      intro c hc
      simp [hp c hc]
    intro c hc
    have h0 := List.filter_eq_nil_iff.1 (List.length_eq_zero_iff.1 this) c hc
    simpa using h0
  have he : pre ++ p' = p ++ ['\\'] := by
    refine split_first_wild (b := m' ++ post) (d := t') (w := w) (w' := w) ?_ ?_ ?_ hw hw
    · have := h2.symm.trans hlit
      simpa using this
    · intro c hc
      rcases List.mem_append.1 hc with hc | hc
      · exact hpre c hc
      · exact hps c hc
    · intro c hc
      rcases List.mem_append.1 hc with hc | hc
      · exact hp c hc
      · rw [List.mem_singleton.1 hc]; decide
  have hlen := congrArg List.length he
  rw [List.length_append, List.length_append, ← hp'.length_eq] at hlen
  obtain ⟨x, rfl⟩ := List.length_eq_one_iff.1 (show pre.length = 1 by simp at hlen; omega)
  obtain ⟨rfl, hall⟩ := all_backslashes hp' he
  refine (h4 trivial).1 ?_
  have nobs : ¬ WordChar '\\' := by unfold WordChar; decide
  constructor
  · rintro ⟨c, hc, hwc⟩
    simp only [List.getLast?_singleton, Option.some.injEq] at hc
    exact absurd (hc ▸ hwc) nobs
  · rintro ⟨c, hc, hwc⟩
    exfalso
    cases p' with
    | nil =>
      simp only [List.nil_append, List.cons_append, List.head?_cons, Option.some.injEq] at hc
      subst hc
      apply hw
      simp only [solid, decide_eq_true_eq]
      constructor
      · rintro rfl; revert hwc; unfold WordChar; decide
      · rintro rfl; revert hwc; unfold WordChar; decide
    | cons y p' =>
      simp only [List.cons_append, List.head?_cons, Option.some.injEq] at hc
      rw [← hc, hall y (by simp)] at hwc
      exact nobs hwc

/-- **C36.** An ASCII literal all of whose wildcards are escaped, one at least, never matches the document with the text
equal to the literal. -/
theorem C36_escaped_never (hE : FoldsApart E) {raw k rawt lit meant : Str}
    (hk : E.unescape raw = some k) (ht : E.unescape rawt = some lit) (hl : ∀ c ∈ lit, c.toNat < 128)
    (hm : Toks lit (meant.map .lit)) (hne : lit ≠ meant) (h : Ready E (.expr .EQ [k] [.str lit p] pos) m) :
    ¬ Accepts E m (.obj [(raw, .str rawt)]) := by
  rw [C35_wildcards hE hl h plain_single]
  rintro ⟨s, t, hs, htx, ho⟩
  rw [single_str hk] at hs
  subst hs
  cases htx with
  | str htx =>
    rw [ht] at htx
    cases htx
    exact escaped_never hm hne ho

theorem own_instance {g : Char → Char} {s : Str} (hg : ∀ c ∈ s, foldEq E (g c) c = true)
    (hw : ∀ c ∈ s, g c = '?' ∨ g c = '*' → c ≠ '\n') {ts : List PTok} (h : Toks (s.map g) ts) (hb : NoEscape (s.map g)) :
    Instance (fun a b => foldEq E a b = true) ts s := by
  generalize ht : s.map g = t at h hb
  induction h generalizing s with
  | nil => cases s <;> simp at ht; exact .nil
  | escOne => exact hb.not_one.elim
  | escMany => exact hb.not_many.elim
  | one _ ih =>
    cases s <;> simp at ht
    next c s =>
    exact .one (hw c (by simp) (.inl ht.1)) (ih (fun c hc => hg c (by simp [hc])) (fun c hc => hw c (by simp [hc])) ht.2 hb.tail)
  | many _ ih =>
    cases s <;> simp at ht
    next c s =>
    refine .many (run := [c]) ?_ (ih (fun c hc => hg c (by simp [hc])) (fun c hc => hw c (by simp [hc])) ht.2 hb.tail)
    simpa [eq_comm] using hw c (by simp) (.inr ht.1)
  | char _ _ _ _ ih =>
    cases s <;> simp at ht
    next c s =>
    obtain ⟨rfl, ht⟩ := ht
    exact .lit (hg c (by simp)) (ih (fun c hc => hg c (by simp [hc])) (fun c hc => hw c (by simp [hc])) ht hb.tail)

/-- **C36.** A literal with wildcards, none of them escaped, whose lower-case form is not ASCII, always matches the document
with the text equal to it, if the library folds what it writes in lower case. -/
theorem C36_self_match_unicode {raw k rawt lit : Str}
    (hk : E.unescape raw = some k) (ht : E.unescape rawt = some lit) (hw : ∃ c ∈ lit, c = '?' ∨ c = '*')
    (hl : ∃ c ∈ toLower E lit, 128 ≤ c.toNat) (hb : NoEscape (toLower E lit))
    (hf : ∀ c ∈ lit, foldEq E (goLower E c) c = true) (h : Ready E (.expr .EQ [k] [.str lit p] pos) m) :
    Accepts E m (.obj [(raw, .str rawt)]) := by
  rw [C35_wildcards_unicode hw hl h plain_single]
  refine ⟨_, _, (single_str hk _ _).2 rfl, .str ht, _, [], lit, [], toks_toksOf _, by simp, ?_, fun h => h.elim⟩
  refine own_instance hf ?_ (toks_toksOf _) hb
  rintro c - hc rfl
  have : goLower E '\n' = '\n' := rfl
  rw [this] at hc
  rcases hc with h | h <;> exact absurd h (by decide)

/-- `é?` does. -/
example : (∃ c ∈ toLower testEnv "é?".toList, 128 ≤ c.toNat) ∧ (∀ c ∈ "é?".toList, foldEq testEnv (goLower testEnv c) c = true) ∧
    NoEscape (toLower testEnv "é?".toList) :=
  ⟨by decide +kernel, by decide +kernel, .of_none (by decide +kernel)⟩

end Aql
