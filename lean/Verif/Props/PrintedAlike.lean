import Verif.Props.Printed
/-!
Property C97: which trees are printed alike, with empty paths.
-/

namespace Aql

open Spec

variable {E : Env}

/-- Empty paths become the path of the empty name. -/
def named : Node → Node
  | .and l r => .and (named l) (named r)
  | .or l r => .or (named l) (named r)
  | .not e => .not (named e)
  | .subdoc f e => .subdoc f (named e)
  | .expr op [] vs p => .expr op [[]] vs p
  | .expr op f vs p => .expr op f vs p

theorem named_expr (op : Op) (f : List Str) (vs : List Val) (p : Pos) :
    ∃ g, named (.expr op f vs p) = .expr op g vs p ∧ g ≠ [] ∧ SamePath f g := by
  cases f with
  | nil => exact ⟨[[]], rfl, by simp, .inr (.inl ⟨rfl, rfl⟩)⟩
  | cons k f => exact ⟨k :: f, rfl, by simp, .inl rfl⟩

theorem samePath_string {f g : List Str} (h : SamePath f g) : fieldString E f = fieldString E g := by
  rcases h with rfl | ⟨rfl, rfl⟩ | ⟨rfl, rfl⟩ <;> rfl

theorem named_str (n : Node) : (named n).toStr E = n.toStr E := by
  induction n with
  | and l r hl hr => simp only [named, Node.toStr, hl, hr]
  | or l r hl hr => simp only [named, Node.toStr, hl, hr]
  | not e h => simp only [named, Node.toStr, h]
  | subdoc f e h => simp only [named, Node.toStr, h]
  | expr op f vs p =>
    obtain ⟨g, e, -, h⟩ := named_expr op f vs p
    rw [e, exprStr, exprStr, samePath_string h]

theorem text_named {L : Level} {pre s : Str} {n : Node} (h : Text E L pre s n) (hl : LegiblePatterns n) :
    Readable E (named n) := by
  induction h with
  | group _ _ _ ih => exact ih hl
  | noArgs _ _ _ ho _ =>
    obtain ⟨g, e, hg, -⟩ := named_expr _ _ [] _
    rw [e]
    refine ⟨hg, ?_, by simp⟩
    cases ho <;> simp
  | compare _ _ _ ho _ hv _ =>
    obtain ⟨h1, h2⟩ := values_kind hv
    obtain ⟨g, e, hg, -⟩ := named_expr _ _ _ _
    rw [e]
    refine ⟨hg, ⟨fun h => absurd h h1, ?_⟩, ?_⟩
    · intro h; cases ho <;> simp at h
    · intro v hv
      obtain ⟨_, _, h⟩ := h2 v hv
      exact lit_kind h (hl v hv)
  | notCmp _ ih => exact ih hl
  | not _ _ ih => exact ih hl
  | andNot _ ih => exact ih hl
  | and _ _ _ _ ih1 ih2 => exact ⟨ih1 hl.1, ih2 hl.2⟩
  | orAnd _ ih => exact ih hl
  | or _ _ _ _ ih1 ih2 => exact ⟨ih1 hl.1, ih2 hl.2⟩

theorem twin_near {a b : Node} (h : TwinTree E a b) : ∀ {m n : Node}, a = named m → b = named n → NearTree (Twin E) m n := by
  have name : ∀ {f g f' : List Str}, SamePath f f' → SamePath g f' → f' ≠ [] → SamePath f g := by
    rintro f g f' (rfl | ⟨rfl, rfl⟩ | ⟨rfl, rfl⟩) (rfl | ⟨rfl, h⟩ | ⟨rfl, h⟩) hf
    · exact .inl rfl
    · subst h; exact .inr (.inr ⟨rfl, rfl⟩)
    · exact absurd h hf
    · exact .inr (.inl ⟨rfl, rfl⟩)
    · exact .inl rfl
    · cases h
    · exact absurd rfl hf
    · cases h
    · exact absurd rfl hf
  have shape : ∀ {m : Node} {op f vs p}, Node.expr op f vs p = named m →
      ∃ g, m = .expr op g vs p ∧ SamePath g f ∧ f ≠ [] := by
    intro m op f vs p h
    cases m with
    | expr op' f' vs' p' =>
      obtain ⟨g, e, hg, hs⟩ := named_expr op' f' vs' p'
      rw [e] at h
      cases h
      exact ⟨f', rfl, hs, hg⟩
    | _ => cases h
  have notExpr : ∀ {m : Node} {a : Node}, a = named m → (∀ op f vs p, a ≠ .expr op f vs p) → ∀ op f vs p, m ≠ .expr op f vs p := by
    rintro m a h ha op f vs p rfl
    obtain ⟨g, e, -, -⟩ := named_expr op f vs p
    exact ha _ _ _ _ (h.trans e)
  induction h with
  | and _ _ h1 h2 =>
    intro m n hm hn
    have a1 := notExpr hm (by simp)
    have a2 := notExpr hn (by simp)
    cases m <;> first | exact absurd rfl (a1 _ _ _ _) | (simp only [named] at hm; cases hm)
    cases n <;> first | exact absurd rfl (a2 _ _ _ _) | (simp only [named] at hn; cases hn)
    exact .and (h1 rfl rfl) (h2 rfl rfl)
  | or _ _ h1 h2 =>
    intro m n hm hn
    have a1 := notExpr hm (by simp)
    have a2 := notExpr hn (by simp)
    cases m <;> first | exact absurd rfl (a1 _ _ _ _) | (simp only [named] at hm; cases hm)
    cases n <;> first | exact absurd rfl (a2 _ _ _ _) | (simp only [named] at hn; cases hn)
    exact .or (h1 rfl rfl) (h2 rfl rfl)
  | not _ h1 =>
    intro m n hm hn
    have a1 := notExpr hm (by simp)
    have a2 := notExpr hn (by simp)
    cases m <;> first | exact absurd rfl (a1 _ _ _ _) | (simp only [named] at hm; cases hm)
    cases n <;> first | exact absurd rfl (a2 _ _ _ _) | (simp only [named] at hn; cases hn)
    exact .not (h1 rfl rfl)
  | expr h1 =>
    intro m n hm hn
    obtain ⟨g, rfl, s1, hf⟩ := shape hm
    obtain ⟨g', rfl, s2, -⟩ := shape hn
    exact .expr (name s1 s2 hf) h1

theorem near_str {m n : Node} (h : NearTree (Twin E) m n) : m.toStr E = n.toStr E := by
  induction h with
  | and _ _ h1 h2 => simp only [Node.toStr, h1, h2]
  | or _ _ h1 h2 => simp only [Node.toStr, h1, h2]
  | not _ h => simp only [Node.toStr, h]
  | expr hp hv =>
    rw [exprStr, exprStr, samePath_string hp]
    congr 2
    cases hv with
    | nil => rfl
    | cons h t =>
      cases t with
      | nil => simp only [argsText, h.2]
      | cons h' t => simp only [argsText, joinVals_twin (List.Forall₂.cons h (.cons h' t))]

/-- **C97, exactly, up to patterns.** The trees of two queries in whose patterns no slash comes before `)`, `,` or `]` are
printed alike if and only if they are the same tree with values that are the same and printed alike, where a path of
nothing but `*` counts as the path of the empty name. -/
theorem C97_alike_exact (s t : Str) (m n : Node) (hm : Query E s m) (hn : Query E t n) (lm : LegiblePatterns m)
    (ln : LegiblePatterns n) :
    m.toStr E = n.toStr E ↔ NearTree (fun v w => SameValue v w ∧ v.toStr E = w.toStr E) m n := by
  constructor
  · intro h
    obtain ⟨_, _, _, -, -, tm, -⟩ := hm
    obtain ⟨_, _, _, -, -, tn, -⟩ := hn
    obtain ⟨h, -⟩ := node_cut (k := 0) (text_named tm lm) (text_named tn ln) (.inl rfl) (.inl rfl)
      (by rw [named_str, named_str, h])
    exact twin_near h rfl rfl
  · exact near_str

/-- The trees of `*:1` and `"":1`. -/
example : ∃ m n, Query testEnv "*:1".toList m ∧ Query testEnv "\"\":1".toList n ∧ LegiblePatterns m ∧ LegiblePatterns n ∧
    m.toStr testEnv = n.toStr testEnv ∧ m ≠ n := by
  refine ⟨_, _, query_of_tree testEnv (n := .expr .EQ [] [.int 1 "1".toList ⟨1, 3, 2, 1⟩] ⟨1, 1, 0, 3⟩) (by decide +kernel),
    query_of_tree testEnv (n := .expr .EQ [[]] [.int 1 "1".toList ⟨1, 4, 3, 1⟩] ⟨1, 1, 0, 4⟩) (by decide +kernel), ?_, ?_,
    by decide +kernel, by simp⟩ <;> simp [LegiblePatterns, LegibleVal]

end Aql
