import Verif.Proofs.Memo
import Verif.Props.Limit
/-!
C117: what the option `Memoize` guarantees.
-/

namespace Aql
open Spec

variable (E : Env)

/-- **C117.** With the option the parser evaluates at most 312 expressions, all of the grammar, for each
offset: the work is linear in the length of the text, for every text and with or without a maximum. The
parser ends, too. -/
theorem C117_linear (max : Nat) (input : List Sym) :
    oExprCount E ⟨max, true⟩ input ≤ 312 * (input.length + 1) ∧ oParse E ⟨max, true⟩ input ≠ none := by
  obtain ⟨log, r, s, h, ht, -, -⟩ := memo_start (E := E) (o := ⟨max, true⟩) rfl input
  constructor
  · unfold oExprCount
    rw [h]
    exact ht
  · unfold oParse
    rw [h]
    simp

/-- **C117.** No bound that is polynomial in the length holds without the option (C08); with it a query in
`n` pairs of parentheses takes a number of evaluations that is linear in `n`, instead of more than `4 ^ n`. -/
theorem C117_instead_of_exponential (n : Nat) :
    4 ^ (n + 1) ≤ oExprCount E ⟨0, false⟩ ((nest n "a:exists".toList).map .ok) ∧
    oExprCount E ⟨0, true⟩ ((nest n "a:exists".toList).map .ok) ≤ 624 * n + 2808 := by
  constructor
  · have hc := (C08_nested_parentheses_cost E "a:exists".toList (exists_text E) n).2
    refine hc.trans (Nat.le_of_eq ?_)
    rw [← exprCount_text]
    unfold exprCount oExprCount
    rcases lim_cases (E := E) (o := ⟨0, false⟩) rfl (Nat.zero_le _)
      ((nest n "a:exists".toList).map .ok) with ⟨s, log, r, h1, h2, -⟩ | ⟨hx, -⟩
    · rw [h1, h2]
    · exact absurd hx.1 (Nat.lt_irrefl 0)
  · refine (C117_linear E 0 _).1.trans ?_
    rw [List.length_map, nest_length, show ("a:exists".toList).length = 8 by decide]
    omega

/-- **C117.** With both options a maximum above 312 evaluations for each character, and one more character, is
never reached. -/
theorem C117_maximum_not_reached (o : Opts) (ho : o.memoize = true) (input : List Sym)
    (h : 312 * (input.length + 1) < o.limit) : ∀ at_, oParse E o input ≠ some (.maxExprs at_) := by
  intro at_ hp
  obtain ⟨log, r, s, hr, ht, -, hc⟩ := memo_start (E := E) ho input
  unfold oParse at hp
  rw [hr] at hp
  cases r with
  | ok v c fr => cases hp
  | fail c => cases hp
  | panic p c =>
    cases p with
    | some p => cases hp
    | none =>
      have := hc c rfl
      omega

/-! Evaluations without the option and with it: `(a:exists)` costs 1,060 and 123. -/

example : oExprCount testEnv ⟨0, false⟩ ("(a:exists)".toList.map .ok) = 1060 := by decide +kernel
example : oExprCount testEnv ⟨0, true⟩ ("(a:exists)".toList.map .ok) = 123 := by decide +kernel
example : oExprCount testEnv ⟨0, true⟩ ("((((a:exists))))".toList.map .ok) = 240 := by decide +kernel
/-- The query is accepted with the option, with a maximum that it does not reach. -/
example : ((oOutcome (oParse testEnv ⟨5305, true⟩ ("((((a:exists))))".toList.map .ok))).bind id).isSome = true ∧
    312 * (("((((a:exists))))".toList.map Sym.ok).length + 1) < (⟨5305, true⟩ : Opts).limit := by decide +kernel

end Aql
