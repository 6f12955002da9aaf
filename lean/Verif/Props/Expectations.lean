import Verif.Proofs.Complete
import Verif.Spec.Expectation
import Verif.Props.ErrorText
/-!
Property C86: the expectations of a syntax error are complete.
-/

namespace Aql

open Spec

variable (E : Env)

/-! ### C86 -/

/-- The kind of a rejection is known from its message. -/
theorem rejected_noMatch {s : Str} {e : PErr} (h : grammarOut E (decode (utf8 s)) = some (.error e))
    (hm : "no match".toList <+: e.msg) : ∃ q ws k, parse E (s.map .ok) = some (.error q ⟨.noMatch ws, k⟩) ∧
      e.pos.offset = q.off ∧ e.msg = "no match found, expected: ".toList ++ listJoin ws := by
  rw [decode_utf8] at h
  unfold grammarOut at h
  rcases hp : parse E (s.map .ok) with _ | (v | ⟨p, k⟩)
  · rw [hp] at h; cases h
  · rw [hp] at h
    obtain ⟨n, rfl⟩ := parse_node hp
    simp at h
  · rw [hp] at h
    simp only [Option.map_some, Option.some.injEq, Except.error.injEq] at h
    subst h
    obtain ⟨kind, len⟩ := k
    obtain ⟨t, ht⟩ := hm
    cases kind <;> first | exact ⟨_, _, _, rfl, rfl, rfl⟩ | (exfalso; cases ht; done)

/-- A rejection and a query with the same beginning. -/
theorem rejected_facts {p r : Str} {e : PErr} (h : grammarOut E (decode (utf8 (p ++ r))) = some (.error e))
    (hm : "no match".toList <+: e.msg) (hp : e.pos.offset = bytesOf p) :
    ∃ ws m, e.msg = "no match found, expected: ".toList ++ m ∧ Listed ws m ∧ (∀ w ∈ ws, Unmet E w r) ∧
      (∀ w ∈ ws, ∀ k, readWant w = some (.lit k true) → k.length = 1) ∧
      ∀ t n, Query E (p ++ t) n → ∃ w ∈ ws, Met E w t := by
  obtain ⟨q, ws, k, hq, ho, hmsg⟩ := rejected_noMatch E h hm
  rw [ho] at hp
  have hp : q.off = bytesOf p := by exact_mod_cast hp
  obtain ⟨l, d, h1, -, rfl, rfl⟩ := noMatch_run hq
  obtain ⟨pre, post, hs, hpl, hun, -, -, hl⟩ := expected_facts h1
  rw [hpl, locAt_off] at hp
  obtain ⟨rfl, rfl⟩ := same_place hs.symm hp
  refine ⟨_, _, hmsg, hl, hun, fun w hw k hk => fold_single h1 hw hk, fun t n ht => ?_⟩
  have hacc := (grammarOut_iff (E := E)).2 ⟨_, rfl, ht⟩
  unfold grammarOut at hacc
  rcases hv : parse E ((pre ++ t).map .ok) with _ | (v | ⟨q, k⟩)
  · rw [hv] at hacc; cases hacc
  · exact expectations_complete hq (by rw [hpl, locAt_off]) hv
  · rw [hv] at hacc; cases hacc

/-- **C86.** If a text is rejected for lack of a match at the end of `p`, then every query that begins with `p`
goes on with something that the message lists, or ends there if the message lists the end. The rest of the
rejected text meets none of it. -/
theorem C86_expectations_complete (p r : Str) (e : PErr)
    (h : grammarOut E (decode (utf8 (p ++ r))) = some (.error e)) (hm : "no match".toList <+: e.msg)
    (hp : e.pos.offset = bytesOf p) :
    ∃ ws m, e.msg = "no match found, expected: ".toList ++ m ∧ Listed ws m ∧ (∀ w ∈ ws, Unmet E w r) ∧
      ∀ t n, Query E (p ++ t) n → ∃ w ∈ ws, Met E w t := by
  obtain ⟨ws, m, h1, h2, h3, -, h4⟩ := rejected_facts E h hm hp
  exact ⟨ws, m, h1, h2, h3, h4⟩

/-- **C86.** The marked character is wrong: no query begins with the text up to and including it, unless it
begins a word of several characters that is listed and that the rejected text does not contain there whole. -/
theorem C86_marked_character_wrong (p r t : Str) (c : Char) (e : PErr) (n : Node)
    (h : grammarOut E (decode (utf8 (p ++ c :: r))) = some (.error e)) (hm : "no match".toList <+: e.msg)
    (hp : e.pos.offset = bytesOf p) (ht : Query E (p ++ c :: t) n) :
    ∃ ws m, e.msg = "no match found, expected: ".toList ++ m ∧ Listed ws m ∧
      ∃ w ∈ ws, ∃ k, IsWord w k ∧ k <+: c :: t ∧ ¬ k <+: c :: r := by
  obtain ⟨ws, m, h1, h2, h3, h4, h5⟩ := rejected_facts E h hm hp
  obtain ⟨w, hw, ⟨-, ht⟩ | ⟨T, hT, hb⟩⟩ := h5 _ n ht
  · cases ht
  refine ⟨ws, m, h1, h2, w, hw, ?_⟩
  have hn : ¬ T.Begins E (c :: r) := by
    rcases h3 w hw with ⟨rfl, -⟩ | ⟨T', hT', hn⟩ | ⟨w', T', rfl, -⟩
    · cases hT
    · rw [hT] at hT'
      cases hT'
      exact hn
    · cases hT
  cases T with
  | any => exact (hn (by simp [Terminal.Begins])).elim
  | cls cs rs ic inv =>
    obtain ⟨d, u, hd, hm⟩ := hb
    cases hd
    exact (hn ⟨c, r, rfl, hm⟩).elim
  | lit k ic =>
    cases ic
    · obtain ⟨a, b, hab, ha⟩ := hb
      simp only [Bool.false_eq_true, if_false] at ha
      subst ha
      have hn' : ¬ a <+: c :: r := fun ⟨v, hv⟩ => hn ⟨a, v, hv.symm, by simp⟩
      refine ⟨a, ⟨hT, ?_⟩, ⟨b, hab.symm⟩, hn'⟩
      rcases a with _ | ⟨x, _ | ⟨y, a⟩⟩
      · exact (hn' (List.nil_prefix)).elim
      · cases hab
        exact (hn' ⟨r, rfl⟩).elim
      · simp
    · have hk := h4 w hw k hT
      obtain ⟨a, b, hab, ha⟩ := hb
      simp only [if_true] at ha
      rcases a with _ | ⟨x, _ | ⟨y, a⟩⟩
      · have := congrArg List.length ha
        simp [hk] at this
      · cases hab
        exact (hn ⟨[c], r, rfl, by simpa using ha⟩).elim
      · have := congrArg List.length ha
        simp [hk] at this

/-- Where, and for lack of what, a text is rejected. -/
def lacks (s : Str) : Option (Int × Str) := (diagnosed E s).map fun d => (d.1.offset, d.2)

-- expectations of several kinds, and queries that meet them
example : lacks testEnv "a:1 b".toList = some (4, "no match found, expected: \"AND\", \"OR\", [ \\n\\t\\r] or EOF".toList) := by
  decide +kernel
example : lacks testEnv "a:2021-01-0".toList = some (11, "no match found, expected: [0-9]".toList) := by decide +kernel
example : lacks testEnv "NO".toList = some (2, "no match found, expected: \".\", \":\", [ \\n\\t\\r] or [a-z0-9_-]i".toList) := by
  decide +kernel

/-- The grammar stage returns a tree. -/
def readsTree (s : Str) : Bool := match grammarOut E (decode (utf8 s)) with
  | some (.ok _) => true
  | _ => false

theorem query_of_reads {s : Str} (h : readsTree E s = true) : ∃ n, Query E s n := by
  unfold readsTree at h
  split at h
  · rename_i n hn
    obtain ⟨t, ht, hq⟩ := grammarOut_iff.1 hn
    rw [decode_utf8] at ht
    rw [map_ok_inj ht]
    exact ⟨n, hq⟩
  · cases h

theorem error_of_lacks {s m : Str} {k : Int} (h : lacks E s = some (k, m)) :
    ∃ e, grammarOut E (decode (utf8 s)) = some (.error e) ∧ e.msg = m ∧ e.pos.offset = k := by
  unfold lacks diagnosed at h
  split at h
  · rename_i e he
    simp only [Option.map_some, Option.some.injEq, Prod.mk.injEq] at h
    exact ⟨e, he, h.2, h.1⟩
  · cases h

/-- A rejected text and queries with the same beginning; one has the same character there. -/
example : ∃ e, grammarOut testEnv (decode (utf8 ("a:1 ".toList ++ "AN".toList))) = some (.error e) ∧ "no match".toList <+: e.msg ∧
    e.pos.offset = bytesOf "a:1 ".toList ∧ (∃ n, Query testEnv ("a:1 ".toList ++ "AND b:2".toList) n) ∧
    (∃ n, Query testEnv ("a:1 ".toList ++ "\tOR b:2".toList) n) ∧ ∃ n, Query testEnv ("a:1 ".toList ++ []) n := by
  obtain ⟨e, he, hm, hp⟩ := error_of_lacks testEnv (show lacks testEnv "a:1 AN".toList =
    some (4, "no match found, expected: \"AND\", \"OR\", [ \\n\\t\\r] or EOF".toList) by decide +kernel)
  refine ⟨e, he, by rw [hm]; decide +kernel, by rw [hp]; decide +kernel, ?_, ?_, ?_⟩
  · exact query_of_reads testEnv (by decide +kernel)
  · exact query_of_reads testEnv (by decide +kernel)
  · exact query_of_reads testEnv (by decide +kernel)

/-- A word half written where a name could go on, and an operator half written. -/
example : (∃ n, Query testEnv ("NO".toList ++ "T a:1".toList) n) ∧ (∃ n, Query testEnv ("a:>".toList ++ "<(1,2)".toList) n) ∧
    lacks testEnv "a:>".toList = some (3, "no match found, expected: \"(\", \"-\", \"/\", \"=\", \"\\\"\", \"false\", \"true\", [ \\n\\t\\r], [0-9] or [^ \\n\\t\\r]".toList) := by
  refine ⟨query_of_reads testEnv (by decide +kernel), query_of_reads testEnv (by decide +kernel), by decide +kernel⟩

end Aql
