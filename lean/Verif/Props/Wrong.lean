import Verif.Proofs.FlawStart
import Verif.Props.Expectations
/-!
Property C119: texts that begin with a wrong clause are rejected, and the message says what is wrong.
-/

namespace Aql

open Spec

variable (E : Env)

/-! ### C119 -/

/-- **C119.** A text in which a wrong clause stands where a clause is expected is rejected, whatever
follows, and the message and its place are those of the wrong clause. -/
theorem C119_rejected {q s v msg : Str} {n : Nat} (hq : Opens E .cmp q) (h : WrongClause E q s v msg n) :
    ∃ e : PErr, grammarOut E (decode (utf8 (q ++ s))) = some (.error e) ∧ e.msg = msg ∧ e.pos.len = n ∧
      e.pos.offset = bytesOf (q ++ v) ∧ ∃ r, s = v ++ r ∧
      ((∃ t, r = '\n' :: t) → e.pos.line = lineOf (q ++ v) + 1 ∧ e.pos.col = 0) ∧
      ((∀ t, r ≠ '\n' :: t) → e.pos.line = lineOf (q ++ v) ∧ e.pos.col = colOf (q ++ v)) := by
  obtain ⟨r, j, rfl, rfl, rfl, hp⟩ := parse_wrong hq h
  rw [decode_utf8]
  unfold grammarOut
  rw [hp]
  refine ⟨_, rfl, rfl, rfl, ?_, r, rfl, ?_, ?_⟩
  · show ((locAt (q ++ v) r).off : Int) = _
    rw [locAt_off]
  · rintro ⟨t, ht⟩
    rw [ht]
    exact ⟨rfl, rfl⟩
  · intro hn
    show ((locAt (q ++ v) r).line : Int) = _ ∧ ((locAt (q ++ v) r).col : Int) = _
    rw [locAt_other hn]
    exact ⟨rfl, rfl⟩

/-- Messages about wrong clauses do not look like those that list what was expected. -/
theorem wrong_notNoMatch {q s v msg : Str} {n : Nat} (h : WrongClause E q s v msg n) : ¬ "no match".toList <+: msg := by
  have hi : ∀ t, ¬ "no match".toList <+: 'i' :: t := by rintro t ⟨r, h⟩; exact absurd (List.cons.inj h).1 (by decide)
  have hu : ∀ t, ¬ "no match".toList <+: 'u' :: t := by rintro t ⟨r, h⟩; exact absurd (List.cons.inj h).1 (by decide)
  have hs : ∀ {s v msg n}, WrongString E s v msg n → ¬ "no match".toList <+: msg := by
    intro s v msg n h
    cases h
    · exact hi _
    · exact hu _
  have hv : ∀ {s v msg n}, WrongValue E s v msg n → ¬ "no match".toList <+: msg := by
    intro s v msg n h
    cases h with
    | string h => exact hs h
    | unclosedPattern => exact hu _
    | closing => exact hu _
    | unknown => exact hu _
    | _ => exact hi _
  have hl : ∀ {q s v msg n}, WrongList E q s v msg n → ¬ "no match".toList <+: msg := by
    intro q s v msg n h
    cases h with
    | first _ h => exact hv h
    | later _ _ _ _ h => exact hv h
    | single => exact hu _
  cases h with
  | values _ _ _ _ _ _ _ _ h =>
    cases h with
    | one h _ => exact hv h
    | list h => exact hl h
    | broken h _ _ => exact hv h
  | name _ h => exact hs h

/-- **C119.** The other way round: a message that does not list what was expected is about a wrong clause
where a clause is expected, and nothing else is. -/
theorem C119_exact (s msg : Str) (n i : Int) :
    (∃ e : PErr, grammarOut E (decode (utf8 s)) = some (.error e) ∧ e.msg = msg ∧ e.pos.len = n ∧ e.pos.offset = i ∧
      ¬ "no match".toList <+: msg) ↔
    ∃ q t v m, s = q ++ t ∧ Opens E .cmp q ∧ WrongClause E q t v msg m ∧ n = m ∧ i = bytesOf (q ++ v) := by
  constructor
  · rintro ⟨e, h, rfl, rfl, rfl, hm⟩
    rw [decode_utf8] at h
    unfold grammarOut at h
    rcases hp : parse E (s.map .ok) with _ | (v | ⟨p, k⟩)
    · rw [hp] at h; cases h
    · rw [hp] at h
      obtain ⟨n, rfl⟩ := parse_node hp
      simp at h
    · rw [hp] at h
      simp only [Option.map_some, Option.some.injEq, Except.error.injEq] at h
      subst h
      rcases parse_flaw hp with ⟨q, t, rfl, hq, v, r, rfl, rfl, hw⟩ | ⟨x, hx⟩
      · refine ⟨q, v ++ r, v, _, rfl, hq, hw, rfl, ?_⟩
        show ((locAt (q ++ v) r).off : Int) = _
        rw [locAt_off]
      · refine absurd ?_ hm
        show "no match".toList <+: k.kind.text E
        rw [hx]
        exact ⟨" found, expected: ".toList ++ listJoin x, rfl⟩
  · rintro ⟨q, t, v, m, rfl, hq, hw, rfl, rfl⟩
    obtain ⟨e, h, h1, h2, h3, -⟩ := C119_rejected E hq hw
    exact ⟨e, h, h1, h2, h3, wrong_notNoMatch E hw⟩

/-- **C119.** A query contains no wrong clause. -/
theorem C119_disjoint {s q t v msg : Str} {n : Node} {m : Nat} (h : Query E s n) (hs : s = q ++ t) (hq : Opens E .cmp q) :
    ¬ WrongClause E q t v msg m := by
  intro hw
  subst hs
  obtain ⟨e, he, -⟩ := C119_rejected E hq hw
  rw [decode_utf8, grammarOut_iff.2 ⟨_, rfl, h⟩] at he
  cases he

/-- **C119.** A text that is no query and contains no wrong clause is answered with a list of what was
expected. -/
theorem C119_rest {s : Str} (h : ∀ n, ¬ Query E s n)
    (hw : ∀ q t v msg m, s = q ++ t → Opens E .cmp q → ¬ WrongClause E q t v msg m) :
    ∃ e : PErr, grammarOut E (decode (utf8 s)) = some (.error e) ∧ "no match found, expected: ".toList <+: e.msg := by
  rcases hp : parse E (s.map .ok) with _ | (v | ⟨p, k⟩)
  · obtain ⟨l, r0, -, -, h'⟩ := parse_big (E := E) (s.map .ok)
    rw [h'] at hp
    cases hp
  · obtain ⟨n, rfl⟩ := parse_node hp
    refine absurd ?_ (h n)
    have : grammarOut E (s.map .ok) = some (.ok n) := by unfold grammarOut; rw [hp]; rfl
    obtain ⟨s', h1, h2⟩ := grammarOut_iff.1 this
    rwa [(List.map_injective_iff.2 fun _ _ h => by cases h; rfl : Function.Injective (List.map Sym.ok)) h1]
  · rcases parse_flaw hp with ⟨q, t, rfl, hq, v, r, rfl, rfl, hw'⟩ | ⟨x, hx⟩
    · exact absurd hw' (hw _ _ _ _ _ rfl hq)
    · rw [decode_utf8]
      unfold grammarOut
      rw [hp]
      refine ⟨_, rfl, ?_⟩
      show _ <+: k.kind.text E
      rw [hx]
      exact ⟨_, rfl⟩

/-! Texts of each kind -/

-- a clause is expected after `! (`, and `a:b` is wrong there, whatever follows
theorem open_group : Opens testEnv .cmp "! (".toList :=
  .notCmp (.andNot (.orAnd (.group (q := "! ".toList) (w := []) (.not (q := []) (k := "! ".toList)
    (.andNot (.orAnd (.start (by simp [Ws])))) (.bang (w := " ".toList) (by simp [Ws, IsWs]))) (by simp [Ws]))))

theorem wrong_word (t : Str) : WrongClause testEnv "! (".toList ("a:b".toList ++ ' ' :: t) "a:".toList
    "unknown type of value [b] -- did you mean \"b\"?".toList 1 := by
  have h : WrongValue testEnv (['b'] ++ ' ' :: t) [] ("unknown type of value [b] -- did you mean \"b\"?".toList) 1 :=
    .unknown (E := testEnv) (c := 'b') (t := []) ⟨by simp, by simp [IsWs], by simp [IsWs]⟩ (by decide) (by decide) (by decide) (by decide)
      (fun h => absurd h (by decide)) (by decide) (by decide)
  refine .values (p := "a".toList) (w1 := []) (w2 := []) (o := []) (w3 := []) (v := []) (s := ['b'] ++ ' ' :: t)
    (.one (.bare (by simp) (by simp [fieldChar_ascii]; decide)))
    (by simp [Ws]) (by simp [Ws]) .eq (by simp [Ws]) (fun _ => rfl) ?_ ?_ (.one h (by simp))
  · rintro k x (_ | _) <;> simp
  · rintro k x (_ | _ | _ | _ | _ | _ | _) <;> simp

example : ∃ e : PErr, grammarOut testEnv (decode (utf8 ("! (".toList ++ ("a:b".toList ++ ' ' :: "\u00e9 AND )) \\".toList)))) = some (.error e) ∧
    e.msg = "unknown type of value [b] -- did you mean \"b\"?".toList ∧ e.pos.offset = 5 := by
  obtain ⟨e, h1, h2, -, h3, -⟩ := C119_rejected testEnv open_group (wrong_word _)
  exact ⟨e, h1, h2, h3⟩

-- a list that is none, a number out of range behind an operand and a negation, a string in a path
example : diagnosed testEnv "a:(1 2)".toList = some (⟨1, 3, 2, 1⟩,
    "unknown type of value [(1] -- did you mean \"(1\"?".toList) := by decide +kernel
example : diagnosed testEnv "x:1 AND NOT y:>=99999999999999999999".toList = some (⟨1, 17, 16, 1⟩,
    "invalid integer value [99999999999999999999]".toList) := by decide +kernel
example : diagnosed testEnv "b.\"x".toList = some (⟨1, 5, 4, 1⟩,
    "unterminated string, check for missing closing [\"] or unescaped [\\]".toList) := by decide +kernel

-- by C119_exact such an answer is always about a wrong clause, so this text has one
example : ∃ q t v m, "a:(1 2)".toList = q ++ t ∧ Opens testEnv .cmp q ∧
    WrongClause testEnv q t v "unknown type of value [(1] -- did you mean \"(1\"?".toList m ∧ bytesOf (q ++ v) = 2 := by
  have : diagnosed testEnv "a:(1 2)".toList = some (⟨1, 3, 2, 1⟩,
    "unknown type of value [(1] -- did you mean \"(1\"?".toList) := by decide +kernel
  unfold diagnosed at this
  split at this
  · rename_i e he
    simp only [Option.some.injEq, Prod.mk.injEq] at this
    obtain ⟨q, t, v, m, h1, h2, h3, -, h4⟩ := (C119_exact testEnv _ _ _ _).1 ⟨e, he, this.2, rfl, rfl, by decide⟩
    refine ⟨q, t, v, m, h1, h2, h3, ?_⟩
    rw [this.1] at h4
    have h5 : (2 : Int) = bytesOf (q ++ v) := h4
    exact_mod_cast h5.symm
  · cases this

-- neither a query nor a wrong clause
example : diagnosed testEnv "a:1 b:2".toList =
    some (⟨1, 5, 4, 1⟩, "no match found, expected: \"AND\", \"OR\", [ \\n\\t\\r] or EOF".toList) := by decide +kernel

end Aql
