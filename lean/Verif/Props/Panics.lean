import Verif.Props.Texts
/-!
Property C19, exactly: on which documents which queries make `Match` panic and what the others answer.
-/

namespace Aql

open Spec

/-- What evaluating the query on an object document from left to right comes to: `none` if a
comparison without a named segment is reached, otherwise the answer. The right operand of AND is only
looked at when the left one holds, that of OR only when it does not. -/
inductive Spec.Outcome (E : Env) (d : Json) : Node → Option Bool → Prop
  | noPath {op vs pos} : Outcome E d (.expr op [] vs pos) none
  | yes {op k f vs pos} : Sat E d (.expr op (k :: f) vs pos) → Outcome E d (.expr op (k :: f) vs pos) (some true)
  | no {op k f vs pos} : ¬ Sat E d (.expr op (k :: f) vs pos) → Outcome E d (.expr op (k :: f) vs pos) (some false)
  | not {n x} : Outcome E d n x → Outcome E d (.not n) (x.map (!·))
  | andStop {l r x} : Outcome E d l x → x ≠ some true → Outcome E d (.and l r) x
  | andNext {l r x} : Outcome E d l (some true) → Outcome E d r x → Outcome E d (.and l r) x
  | orStop {l r x} : Outcome E d l x → x ≠ some false → Outcome E d (.or l r) x
  | orNext {l r x} : Outcome E d l (some false) → Outcome E d r x → Outcome E d (.or l r) x

/-- The result of `Match` for an outcome. -/
def Spec.outOf : Option Bool → MatchOut
  | none => .panic .outOfRange
  | some b => .result b

variable {E : Env}

theorem build_outcome (d : Json) (n : Node) (hok : AllOk E n) (hns : NoSubdoc n) (hl : LitsIn LitOk n)
    (hp : PathsIn (fun p => p = [] ∨ Plain d p) n) :
    ∃ b x, build E n = .ok b ∧ Outcome E d n x ∧ ∀ a,
      (b.result E d a).2 = x.elim (.error .outOfRange) .ok := by
  induction n with
  | and l r ihl ihr =>
    obtain ⟨bl, x, hbl, hol, hl'⟩ := ihl hok.1 hns.1 hl.1 hp.1
    obtain ⟨br, y, hbr, hor, hr'⟩ := ihr hok.2 hns.2 hl.2 hp.2
    refine ⟨.and bl br, if x = some true then y else x, by simp [build, hbl, hbr], ?_, fun a => ?_⟩
    · split
      · next h => subst h; exact .andNext hol hor
      · next h => exact .andStop hol h
    · have h1 := hl' (a ++ [false])
      have h2 := hr' (a ++ [true])
      simp only [BoolNode.result]
      rcases hL : bl.result E d (a ++ [false]) with ⟨t1, e1⟩
      rcases hR : br.result E d (a ++ [true]) with ⟨t2, e2⟩
      rw [hL] at h1; rw [hR] at h2
      simp only at h1 h2
      subst h1 h2
      rcases x with _ | _ | _ <;> rcases y with _ | _ | _ <;> simp
  | or l r ihl ihr =>
    obtain ⟨bl, x, hbl, hol, hl'⟩ := ihl hok.1 hns.1 hl.1 hp.1
    obtain ⟨br, y, hbr, hor, hr'⟩ := ihr hok.2 hns.2 hl.2 hp.2
    refine ⟨.or bl br, if x = some false then y else x, by simp [build, hbl, hbr], ?_, fun a => ?_⟩
    · split
      · next h => subst h; exact .orNext hol hor
      · next h => exact .orStop hol h
    · have h1 := hl' (a ++ [false])
      have h2 := hr' (a ++ [true])
      simp only [BoolNode.result]
      rcases hL : bl.result E d (a ++ [false]) with ⟨t1, e1⟩
      rcases hR : br.result E d (a ++ [true]) with ⟨t2, e2⟩
      rw [hL] at h1; rw [hR] at h2
      simp only at h1 h2
      subst h1 h2
      rcases x with _ | _ | _ <;> rcases y with _ | _ | _ <;> simp
  | not e ih =>
    obtain ⟨b, x, hb, ho, h⟩ := ih hok hns hl hp
    refine ⟨.not b, x.map (!·), by simp [build, hb], .not ho, fun a => ?_⟩
    have h1 := h (a ++ [false])
    simp only [BoolNode.result]
    rcases hL : b.result E d (a ++ [false]) with ⟨t1, e1⟩
    rw [hL] at h1
    simp only at h1
    subst h1
    rcases x with _ | _ | _ <;> simp
  | subdoc f e => exact absurd hns (by simp [NoSubdoc])
  | expr op f vs pos =>
    obtain ⟨es, hes, h⟩ := buildExprs_spec E op vs hok hl
    cases f with
    | nil =>
      exact ⟨.expr [] es (friendlyString E op [] vs), none, by simp [build, hes], .noPath, fun a => rfl⟩
    | cons k f =>
      obtain ⟨r, hr, hi⟩ := h d (k :: f) pos (hp.resolve_left (by simp))
      refine ⟨.expr (k :: f) es (friendlyString E op (k :: f) vs), some r, by simp [build, hes], ?_, fun a => ?_⟩
      · cases r
        · exact .no (by simpa using hi)
        · exact .yes (hi.1 rfl)
      · simp [BoolNode.result, hr]

theorem outcome_unique {d : Json} {n : Node} {x y : Option Bool} (h : Outcome E d n x) (h' : Outcome E d n y) : x = y := by
  induction h generalizing y with
  | noPath => cases h'; rfl
  | yes h => cases h' with
    | yes => rfl
    | no h' => exact absurd h h'
  | no h => cases h' with
    | yes h' => exact absurd h' h
    | no => rfl
  | not _ ih => cases h' with | not h' => rw [ih h']
  | andStop _ hn ih => cases h' with
    | andStop h' => exact ih h'
    | andNext h' => exact absurd (ih h') hn
  | andNext _ _ ih1 ih2 => cases h' with
    | andStop h' hn => exact absurd (ih1 h').symm hn
    | andNext _ h' => exact ih2 h'
  | orStop _ hn ih => cases h' with
    | orStop h' => exact ih h'
    | orNext h' => exact absurd (ih h') hn
  | orNext _ _ ih1 ih2 => cases h' with
    | orStop h' hn => exact absurd (ih1 h').symm hn
    | orNext _ h' => exact ih2 h'

theorem pathsIn_obj (ms : List (Str × Json)) (n : Node) : PathsIn (fun p => p = [] ∨ Plain (.obj ms) p) n := by
  induction n with
  | and l r ihl ihr => exact ⟨ihl, ihr⟩
  | or l r ihl ihr => exact ⟨ihl, ihr⟩
  | not e ih => exact ih
  | subdoc f e ih => exact ih
  | expr op f vs pos =>
    cases f with
    | nil => exact .inl rfl
    | cons k f => exact .inr ⟨k, f, rfl, by simp⟩

/-- **C19, exactly.** `Match` gives the outcome of evaluating the query from left to right: it panics
iff that reaches a comparison whose field has only `*` segments. Fields beginning with an empty
segment or `[` are excluded for array documents (the library's answer to those is a parameter). -/
theorem C19_match_exact_any {root : Node} {m : Matcher} (h : Ready E root m) (d : Json)
    (hp : PathsIn (fun p => p = [] ∨ Plain d p) root) (x : Option Bool) :
    (m.match E (.valid d)).2 = outOf x ↔ Outcome E d root x := by
  obtain ⟨q, msgs, m0, h1, h2⟩ := h.compiled
  obtain ⟨hok, hb⟩ := newMatcherFrom_ok E h1
  obtain ⟨b, y, hb', ho, hr⟩ := build_outcome d root hok h.grammar.1 h.grammar.2 hp
  rw [hb] at hb'
  simp only [Except.ok.injEq] at hb'
  have hm : (m.match E (.valid d)).2 = outOf y := by
    have hr := hr []
    simp only [Matcher.match]
    rw [h2, hb']
    rcases hx : b.result E d [] with ⟨ts, e⟩
    rw [hx] at hr
    simp only at hr
    subst hr
    cases y <;> rfl
  rw [hm]
  constructor
  · intro he
    have : y = x := by rcases y with _ | _ <;> rcases x with _ | _ <;> simp_all [outOf]
    rwa [← this]
  · intro h'
    rw [outcome_unique ho h']

/-- **C19, exactly, on object documents**, for every query. -/
theorem C19_match_exact {root : Node} {m : Matcher} (h : Ready E root m) (ms : List (Str × Json)) (x : Option Bool) :
    (m.match E (.valid (.obj ms))).2 = outOf x ↔ Outcome E (.obj ms) root x :=
  C19_match_exact_any h _ (pathsIn_obj ms root) x

/-- **C19.** There is always exactly one outcome, so on an object document `Match` returns an answer or
panics with an index out of range, nothing else. -/
theorem C19_outcome_exists (d : Json) {n : Node} (hn : NoSubdoc n) : ∃! x, Outcome E d n x := by
  suffices h : ∃ x, Outcome E d n x by
    obtain ⟨x, h⟩ := h
    exact ⟨x, h, fun y hy => outcome_unique hy h⟩
  induction n with
  | and l r ihl ihr =>
    obtain ⟨x, hx⟩ := ihl hn.1
    obtain ⟨y, hy⟩ := ihr hn.2
    by_cases h : x = some true
    · subst h; exact ⟨y, .andNext hx hy⟩
    · exact ⟨x, .andStop hx h⟩
  | or l r ihl ihr =>
    obtain ⟨x, hx⟩ := ihl hn.1
    obtain ⟨y, hy⟩ := ihr hn.2
    by_cases h : x = some false
    · subst h; exact ⟨y, .orNext hx hy⟩
    · exact ⟨x, .orStop hx h⟩
  | not e ih =>
    obtain ⟨x, hx⟩ := ih hn
    exact ⟨_, .not hx⟩
  | subdoc f e => exact absurd hn (by simp [NoSubdoc])
  | expr op f vs pos =>
    cases f with
    | nil => exact ⟨none, .noPath⟩
    | cons k f =>
      by_cases h : Sat E d (.expr op (k :: f) vs pos)
      · exact ⟨_, .yes h⟩
      · exact ⟨_, .no h⟩

/-- **C19.** The outcome is a panic for no query in which every field has a named segment. -/
theorem C19_no_panic_outcome {d : Json} {n : Node} (hp : PathsIn (fun p => p ≠ []) n) : ¬ Outcome E d n none := by
  suffices h : ∀ x, Outcome E d n x → x ≠ none from fun h' => h none h' rfl
  intro x h
  induction h with
  | noPath => exact absurd rfl hp
  | yes | no => simp
  | not _ ih => simpa using ih hp
  | andStop _ _ ih | orStop _ _ ih => exact ih hp.1
  | andNext _ _ _ ih | orNext _ _ _ ih => exact ih hp.2

-- the same query panics, or not, depending on the document
example : ∃ m, Ready testEnv (.or (.expr .EXS ["a".toList] [] noPosition) (.expr .EXS [] [] noPosition)) m ∧
    (m.match testEnv (.valid (.obj [("a".toList, .null)]))).2 = .result true ∧
    (m.match testEnv (.valid (.obj []))).2 = .panic .outOfRange := by
  obtain ⟨m, hm⟩ := ready_of_compiles testEnv (root := .or (.expr .EXS ["a".toList] [] noPosition)
    (.expr .EXS [] [] noPosition)) (by decide +kernel) ⟨⟨trivial, trivial⟩, by simp [LitsIn]⟩
  refine ⟨m, hm, (C19_match_exact hm _ (some true)).2 (.orStop (.yes ⟨.null, ?_⟩) (by simp)),
    (C19_match_exact hm _ none).2 (.orNext (.no ?_) .noPath)⟩
  · exact .last ⟨[], _, [], rfl, by decide, by simp⟩
  · rintro ⟨v, hv⟩
    cases hv with
    | last h => obtain ⟨pre, raw, post, he, -⟩ := h; simp at he

end Aql
