import Verif.Proofs.Respelled
import Verif.Props.Panics
import Verif.Props.Names
/-!
Property C101: the spelling of documents (json_values.go:114-170).
-/

namespace Aql

open Spec

variable {E : Env} {d d' : Json} {m : Matcher}

theorem Spec.Respelled.outcome (h : Respelled E (LikeString E) d d') {n : Node} {x : Option Bool}
    (ho : Outcome E d n x) : Outcome E d' n x := by
  induction ho with
  | noPath => exact .noPath
  | yes hs => exact .yes (h.sat.1 hs)
  | no hs => exact .no fun hs' => hs (h.sat.2 hs')
  | not _ ih => exact .not ih
  | andStop _ hx ih => exact .andStop ih hx
  | andNext _ _ ih1 ih2 => exact .andNext ih1 ih2
  | orStop _ hx ih => exact .orStop ih hx
  | orNext _ _ ih1 ih2 => exact .orNext ih1 ih2

theorem Spec.Respelled.mono {S T : Str → Str → Prop} (hST : ∀ raw raw', S raw raw' → T raw raw')
    (h : Respelled E S d d') : Respelled E T d d' := by
  induction h with
  | refl a => exact .refl a
  | symm _ ih => exact .symm ih
  | trans _ _ h1 h2 => exact .trans h1 h2
  | num h => exact .num h
  | str h => exact .str (hST _ _ h)
  | name h => exact .name h
  | inArr _ ih => exact .inArr ih
  | inObj _ ih => exact .inObj ih

theorem plain_respelled {S : Str → Str → Prop} (h : Respelled E S d d') : Plain d = Plain d' := by
  have hl : ∀ x : Json, (∃ xs, x = .arr xs) ↔ x.isArr = true := by intro x; cases x <;> simp [Json.isArr]
  funext path
  unfold Plain
  simp only [hl, h.isArr]

/-- **C101, for the part of the documents it holds of.** A matcher gives the same outcome, panics included, on documents
that differ only in the spelling of numbers, names and strings, if the strings are the same numbers as they are spelled.
Paths that begin with an empty segment or `[` are excluded for documents that are arrays. Missing: strings that are
numbers in one spelling only; for them it is false (`C101_spelling_refuted`, `C101_string_exact`). -/
theorem C101_spelling_partial {root : Node} (hr : Ready E root m)
    (h : Respelled E (fun raw raw' => SameString E raw raw' ∧ SameDigits E raw raw') d d')
    (hp : PathsIn (fun p => p = [] ∨ Plain d p) root) :
    (m.match E (.valid d)).2 = (m.match E (.valid d')).2 := by
  obtain ⟨x, hx, -⟩ := C19_outcome_exists (E := E) d hr.grammar.1
  have hp' : PathsIn (fun p => p = [] ∨ Plain d' p) root := by rwa [← plain_respelled h]
  exact ((C19_match_exact_any hr d hp x).2 hx).trans ((C19_match_exact_any hr d' hp' x).2 (h.outcome hx)).symm

/-- The matcher of a text is a matcher for a tree. -/
theorem ready_of_query {query : List UInt8} {msgs : List Msg} (h : newMatcher E query = some (.ok (.ok (m, msgs)))) :
    ∃ root, Ready E root m := by
  unfold newMatcher at h
  rcases hg : grammarOut E (decode query) with _ | ⟨e | n⟩
  · rw [hg] at h; cases h
  · rw [hg] at h
    simp only [Option.map_some, Option.some.injEq] at h
    cases h
  · rw [hg] at h
    simp only [Option.map_some, Option.some.injEq] at h
    exact ⟨n, ⟨_, _, m, h, rfl⟩, C01_accepted_from_grammar E query n hg⟩

theorem respelled_obj {S : Str → Str → Prop} {ms : List (Str × Json)} (h : Respelled E S (.obj ms) d') :
    ∃ ms', d' = .obj ms' := by
  have : ∀ {a b : Json}, Respelled E S a b → a.isObj = b.isObj := by
    intro a b h
    induction h with
    | refl => rfl
    | symm _ ih => exact ih.symm
    | trans _ _ h1 h2 => exact h1.trans h2
    | num | str | name | inArr | inObj => rfl
  have := this h
  cases d' with
  | obj ms' => exact ⟨ms', rfl⟩
  | _ => cases this

/-- **C101, for numbers and names.** On object documents that differ only in the spelling of numbers and of member
names (`1.50` or `15e-1`, an escaped letter or the letter), every query has the same outcome. -/
theorem C101_numbers_and_names {query : List UInt8} {msgs : List Msg} {ms : List (Str × Json)}
    (hm : newMatcher E query = some (.ok (.ok (m, msgs)))) (h : Respelled E (fun _ _ => False) (.obj ms) d') :
    (m.match E (.valid (.obj ms))).2 = (m.match E (.valid d')).2 := by
  obtain ⟨root, hr⟩ := ready_of_query hm
  exact C101_spelling_partial hr (h.mono fun _ _ => False.elim) (pathsIn_obj ms root)

theorem scalarUnder_one {raw raw' k : Str} (hk : E.unescape raw = some k) {s : Json} :
    ScalarUnder E (.obj [(raw, .str raw')]) [k] s ↔ s = .str raw' := by
  have hf : ∀ v, FirstMember E [(raw, .str raw')] k v ↔ v = .str raw' := by
    intro v
    rw [← getMember_iff]
    simp [getMember, hk, eq_comm]
  constructor
  · rintro ⟨-, hr | ⟨items, hr, -⟩⟩
    · cases hr with | last h => exact (hf _).1 h
    · cases hr with | last h => exact absurd ((hf _).1 h) (by simp)
  · rintro rfl
    exact ⟨trivial, .inl (.last ((hf _).2 rfl))⟩

/-- **C69.** Every double, and the negative zero too, can be written as a literal of a query. -/
theorem C69_every_double (f : List Str) (hf : ['*'] ∉ f) {x : ℚ} (hx : IsDouble x) {z : Bool} (hz : z = true → x = 0) :
    ∃ query n, grammarOut E (decode query) = some (.ok n) ∧
      bare n = .expr .EQ f [.float (.fin x) z noPosition] noPosition := by
  refine (C69_trees_of_queries E _).2 ⟨rfl, hf, by simp, ?_⟩
  intro v hv
  rw [List.mem_singleton] at hv
  subst hv
  exact double_lit E hx hz

/-- A text for each comparison with a double. -/
theorem compare_text {x : ℚ} (hx : IsDouble x) {k : Str} (hk : k ≠ ['*']) {o : Str} {op : Op} (ho : OpText o op)
    (hop : op = .EQ ∨ op = .LT ∨ op = .GT) :
    ∃ s m ms, newMatcher E (utf8 s) = some (.ok (.ok (m, ms))) ∧ ∀ raw, E.unescape raw = some k → ∀ raw',
      (Accepts E m (.obj [(raw, .str raw')]) ↔
        ∃ f, ReadAs E raw' f ∧ ((op = .EQ ∧ FEq f (.fin x)) ∨ FRel op f (.fin x))) := by
  obtain ⟨t, w, hl, hw⟩ := double_lit E hx (z := false) (by simp)
  have ht : typeOf w = .float := by
    cases w <;> simp_all [unplaced, Val.type]
  obtain ⟨m, ms, h, hr⟩ := cmpText_matcher (.one (.quoted (strBody_any k))) ho hl (by
    rcases hop with rfl | rfl | rfl
    · exact .inr rfl
    · exact .inl ⟨.inl rfl, .inl (.inr ht)⟩
    · exact .inl ⟨.inr (.inr (.inl rfl)), .inl (.inr ht)⟩) (by rw [ht]; simp)
  refine ⟨_, m, ms, h, fun raw hraw raw' => ?_⟩
  have hws : withoutStars [k] = [k] := by simp [withoutStars, hk]
  rw [hws, hw] at hr
  rw [hr.accepts ⟨k, [], rfl, by simp⟩]
  rcases hop with rfl | rfl | rfl
  · simp only [Sat, List.mem_singleton, exists_eq_left, scalarUnder_one hraw, EqHolds, FRel, or_false, true_and]
    constructor
    · rintro ⟨f, c, h1, h2, h3⟩
      cases h2
      exact ⟨f, numberOf_str.1 h1, h3⟩
    · rintro ⟨f, h1, h3⟩
      exact ⟨f, _, numberOf_str.2 h1, .float, h3⟩
  all_goals
    simp only [Sat, List.mem_singleton, exists_eq_left, scalarUnder_one hraw, CmpHolds, reduceCtorEq, false_and, false_or,
      exists_false, or_false]
    constructor
    · rintro ⟨f, c, h1, h2, h3⟩
      cases h2
      exact ⟨f, numberOf_str.1 h1, h3⟩
    · rintro ⟨f, h1, h3⟩
      exact ⟨f, _, numberOf_str.2 h1, .float, h3⟩

/-- **C101, exactly, for strings.** Two spellings of a string, under a name other than `*`, are answered alike by all
queries if and only if they are the same number as they are spelled, or both none. -/
theorem C101_string_exact {raw k u u' : Str} (hraw : E.unescape raw = some k) (hk : k ≠ ['*'])
    (hs : SameString E u u') :
    (∀ query m msgs, newMatcher E query = some (.ok (.ok (m, msgs))) →
      (m.match E (.valid (.obj [(raw, .str u)]))).2 = (m.match E (.valid (.obj [(raw, .str u')]))).2) ↔
    SameDigits E u u' := by
  constructor
  · intro h
    have move : ∀ {x : ℚ} {o : Str} {op : Op}, IsDouble x → OpText o op → (op = .EQ ∨ op = .LT ∨ op = .GT) →
        ∀ {u u' : Str}, (∀ query m msgs, newMatcher E query = some (.ok (.ok (m, msgs))) →
          (m.match E (.valid (.obj [(raw, .str u)]))).2 = (m.match E (.valid (.obj [(raw, .str u')]))).2) →
        (∃ f, ReadAs E u f ∧ ((op = .EQ ∧ FEq f (.fin x)) ∨ FRel op f (.fin x))) →
        ∃ f, ReadAs E u' f ∧ ((op = .EQ ∧ FEq f (.fin x)) ∨ FRel op f (.fin x)) := by
      intro x o op hx ho hop u u' h hf
      obtain ⟨s, m, ms, hm, hi⟩ := compare_text (E := E) hx hk ho hop
      rw [← hi raw hraw] at hf ⊢
      unfold Accepts at hf ⊢
      rwa [← h _ m ms hm]
    have h0 : IsDouble 0 := ⟨⟨0, 0, by simp, by simp, by simp⟩, by simp⟩
    have one : ∀ {u u' : Str}, (∀ query m msgs, newMatcher E query = some (.ok (.ok (m, msgs))) →
          (m.match E (.valid (.obj [(raw, .str u)]))).2 = (m.match E (.valid (.obj [(raw, .str u')]))).2) →
        ∀ f, f ≠ .nan → ReadAs E u f → ReadAs E u' f := by
      intro u u' h f hf hu
      cases f with
      | nan => exact absurd rfl hf
      | fin x =>
        obtain ⟨g, h1, ⟨-, h2⟩ | h2⟩ := move (readAs_double E hu) .eq (.inl rfl) h ⟨_, hu, .inl ⟨rfl, by simp [FEq, place]⟩⟩
        · cases g with
          | nan => simp [FEq, place] at h2
          | inf b => cases b <;> simp [FEq, place] at h2
          | fin y =>
            have : y = x := by simpa [FEq, place, eq_comm] using h2
            rwa [← this]
        · exact absurd h2 id
      | inf b =>
        cases b with
        | false =>
          obtain ⟨g, h1, ⟨h2, -⟩ | h2⟩ := move h0 .gt (.inr (.inr rfl)) h
            ⟨_, hu, .inr (by simp [FRel, FLt, place, Before])⟩
          · cases h2
          · cases g with
            | nan => simp [FRel, FLt, place] at h2
            | inf b =>
              cases b with
              | false => exact h1
              | true => simp [FRel, FLt, place, Before] at h2
            | fin y =>
              obtain ⟨g', h3, ⟨h4, -⟩ | h4⟩ := move (readAs_double E h1) .gt (.inr (.inr rfl)) h
                ⟨_, hu, .inr (by simp [FRel, FLt, place, Before])⟩
              · cases h4
              · cases readAs_unique h1 h3
                simp [FRel, FLt, place, Before] at h4
        | true =>
          obtain ⟨g, h1, ⟨h2, -⟩ | h2⟩ := move h0 .lt (.inr (.inl rfl)) h
            ⟨_, hu, .inr (by simp [FRel, FLt, place, Before])⟩
          · cases h2
          · cases g with
            | nan => simp [FRel, FLt, place] at h2
            | inf b =>
              cases b with
              | true => exact h1
              | false => simp [FRel, FLt, place, Before] at h2
            | fin y =>
              obtain ⟨g', h3, ⟨h4, -⟩ | h4⟩ := move (readAs_double E h1) .lt (.inr (.inl rfl)) h
                ⟨_, hu, .inr (by simp [FRel, FLt, place, Before])⟩
              · cases h4
              · cases readAs_unique h1 h3
                simp [FRel, FLt, place, Before] at h4
    exact fun f hf => ⟨one h f hf, one (fun q m ms hm => (h q m ms hm).symm) f hf⟩
  · intro hd query m msgs hm
    obtain ⟨root, hr⟩ := ready_of_query hm
    exact C101_spelling_partial hr (.inObj (pre := []) (post := []) (.str ⟨hs, hd⟩)) (pathsIn_obj _ root)

/-- **C101 is false** of strings: a digit that is spelled as an escape makes the same string, but the query `a:1` then
does not match. -/
theorem C101_spelling_refuted (h1 : E.unescape "a".toList = some "a".toList)
    (h2 : E.unescape "1".toList = some "1".toList) (h3 : E.unescape "\\u0031".toList = some "1".toList)
    (h4 : E.parseFloatOther "\\u0031".toList = none) :
    Respelled E (SameString E) (.obj [("a".toList, .str "1".toList)]) (.obj [("a".toList, .str "\\u0031".toList)]) ∧
    ∃ m ms, newMatcher E (utf8 "a:1".toList) = some (.ok (.ok (m, ms))) ∧
      (m.match E (.valid (.obj [("a".toList, .str "1".toList)]))).2 = .result true ∧
      (m.match E (.valid (.obj [("a".toList, .str "\\u0031".toList)]))).2 = .result false := by
  refine ⟨.inObj (pre := []) (post := []) (.str (h2.trans h3.symm)), ?_⟩
  have hl : Lit E [] "1".toList (.int 1 "1".toList (posAt [] "1".toList)) :=
    .int (m := []) (a := ['1']) (.inl rfl) (by simp) (by intro c hc; rw [List.mem_singleton.1 hc]; decide) rfl
      ⟨[], false, ['1'], .none, by simp, by intro c hc; rw [List.mem_singleton.1 hc]; decide, rfl, by decide⟩
      (by norm_num) (by norm_num)
  obtain ⟨m, ms, hm, hr⟩ := cmpText_matcher (.one (piece_ascii "a".toList (by decide))) .eq hl (.inr rfl) (by simp [Val.type])
  refine ⟨m, ms, hm, ?_⟩
  have hsat : ∀ u, Accepts E m (.obj [("a".toList, .str u)]) ↔ ∃ f, ReadAs E u f ∧ FEq f (.fin 1) := by
    intro u
    have hws : withoutStars ["a".toList] = ["a".toList] := by decide
    rw [hws] at hr
    rw [hr.accepts ⟨"a".toList, [], rfl, by simp⟩]
    have h1' : toF64 ((1 : ℤ) : ℚ) = .fin 1 := by decide +kernel
    simp only [Sat, List.mem_singleton, exists_eq_left, scalarUnder_one h1, EqHolds, unplaced]
    constructor
    · rintro ⟨f, c, k1, k2, k3⟩
      cases k2
      rw [h1'] at k3
      exact ⟨f, numberOf_str.1 k1, k3⟩
    · rintro ⟨f, k1, k3⟩
      exact ⟨f, _, numberOf_str.2 k1, .int, by rwa [h1']⟩
  have hone : parseFloat E "1".toList = some (.fin 1) := by
    have e1 : decimalValue "1".toList = some 1 := by decide +kernel
    have e2 : toF64 1 = .fin 1 := by decide +kernel
    unfold parseFloat
    rw [e1]
    dsimp only
    rw [e2]
  obtain ⟨⟨b, hb⟩, -⟩ := hr.answer (d := .obj [("a".toList, .str "\\u0031".toList)]) ⟨_, _, rfl, by simp⟩
  refine ⟨(hsat _).2 ⟨.fin 1, (parseFloat_iff E _ _).1 hone, by simp [FEq, place]⟩, ?_⟩
  rw [hb]
  cases b with
  | false => rfl
  | true =>
    obtain ⟨f, k1, -⟩ := (hsat _).1 hb
    rw [← parseFloat_iff] at k1
    have : decimalValue "\\u0031".toList = none := by decide +kernel
    unfold parseFloat at k1
    rw [this] at k1
    dsimp only at k1
    rw [h4] at k1
    cases k1

/-- A library that knows the escape of the digit 1. -/
def escapeEnv : Env := { testEnv with
  unescape := fun s => if s = "\\u0031".toList then some "1".toList else if '\\' ∈ s then none else some s }

-- the hypotheses are met: two spellings of one document, and of one string
example : Respelled escapeEnv (fun raw raw' => SameString escapeEnv raw raw' ∧ SameDigits escapeEnv raw raw')
    (.obj [("1".toList, .arr [.num "1.50".toList])]) (.obj [("\\u0031".toList, .arr [.num "15e-1".toList])]) := by
  refine .trans (.inObj (pre := []) (post := []) (.inArr (pre := []) (post := []) (.num (raw' := "15e-1".toList) ⟨?_, ?_⟩)))
    (.name (pre := []) (post := []) (by unfold SameString; decide +kernel))
  · intro f
    rw [← parseFloat_iff, ← parseFloat_iff]
    have : parseFloat escapeEnv "1.50".toList = parseFloat escapeEnv "15e-1".toList := by decide +kernel
    rw [this]
  · exact fun _ => ⟨fun ⟨_, h⟩ => (by cases h), fun ⟨_, h⟩ => (by cases h)⟩

example : SameString escapeEnv "1".toList "\\u0031".toList ∧ ¬ SameDigits escapeEnv "1".toList "\\u0031".toList ∧
    escapeEnv.unescape "a".toList = some "a".toList ∧
    answerOf escapeEnv "a:1".toList (.obj [("a".toList, .str "1".toList)]) = some true ∧
    answerOf escapeEnv "a:1".toList (.obj [("a".toList, .str "\\u0031".toList)]) = some false := by
  refine ⟨by unfold SameString; decide +kernel, fun h => ?_, by decide +kernel, by decide +kernel, by decide +kernel⟩
  have h := (h (.fin 1) (by simp)).1 ((parseFloat_iff _ _ _).1 (by decide +kernel))
  rw [← parseFloat_iff] at h
  exact absurd h (by decide +kernel)

end Aql
