import Verif.Proofs.MemoLimit
import Verif.Props.Memoize
/-!
C121: the option `Memoize` does not change what the parser returns.
-/

namespace Aql
open Spec

variable (E : Env)

/-- **C121.** With the option `Memoize` the parser returns what it returns without: the same value for the
same texts, and otherwise the same error at the same place with the same list of what was expected. -/
theorem C121_same_outcome (input : List Sym) : oParse E ⟨0, true⟩ input = (parse E input).map .out :=
  memo_same input

/-- **C121.** Whatever the options are, the parser returns what it returns without options, or reports that the
maximum is reached. In particular no maximum makes it report another error. -/
theorem C121_any_options (o : Opts) (input : List Sym) :
    oParse E o input = (parse E input).map .out ∨ ∃ at_, oParse E o input = some (.maxExprs at_) := by
  refine opts_same o input ?_
  cases hm : o.memoize with
  | true => exact memo_same input
  | false =>
    refine C116_within_the_maximum E ⟨0, false⟩ rfl (Nat.zero_le _) input fun h => ?_
    exact absurd h.1 (Nat.lt_irrefl 0)

/-- **C121.** With `Memoize` and a maximum above 312 evaluations for each character, and one more character,
nothing changes. -/
theorem C121_linear_maximum (o : Opts) (ho : o.memoize = true) (input : List Sym)
    (h : 312 * (input.length + 1) < o.limit) : oParse E o input = (parse E input).map .out :=
  (C121_any_options E o input).resolve_right fun ⟨at_, hx⟩ => C117_maximum_not_reached E o ho input h at_ hx

/-- **C121.** The texts accepted with `Memoize` are the queries, and the value is the tree of the query. -/
theorem C121_accepts_iff (input : List Sym) (n : Node) :
    oParse E ⟨0, true⟩ input = some (.out (.value (.node n))) ↔ ∃ s : Str, input = s.map .ok ∧ Query E s n := by
  rw [C121_same_outcome, ← grammarOut_iff]
  unfold grammarOut
  obtain ⟨l, r, -, -, hp⟩ := parse_big (E := E) input
  rw [hp]
  generalize finish (encErr (.init input) ++ l) r = p
  cases p with
  | error l e => simp
  | value v =>
    cases v <;> simp

/-- **C121.** A maximum that is safe for all queries of a length exists with `Memoize` (without, C116, it
depends on the depth of parentheses, too, and none is safe for all). -/
theorem C121_safe_maximum (max len : Nat) (hmax : 312 * (len + 1) < max) (s : Str) (n : Node)
    (hs : s.length ≤ len) (hq : Query E s n) :
    oParse E ⟨max, true⟩ (s.map .ok) = some (.out (.value (.node n))) := by
  have h0 := (C121_accepts_iff E (s.map .ok) n).2 ⟨s, rfl, hq⟩
  rw [C121_same_outcome] at h0
  rw [C121_linear_maximum E ⟨max, true⟩ rfl, h0]
  rw [List.length_map]
  have : (⟨max, true⟩ : Opts).limit = max := by
    unfold Opts.limit
    rw [if_neg (by dsimp only; omega)]
  omega

/-- **C121.** For queries, and for texts that get a list of what was expected, the option leaves out part of the
work and adds none. -/
theorem C121_no_more_work (input : List Sym)
    (h : (∃ v, parse E input = some (.value v)) ∨ ∃ q ws k, parse E input = some (.error q ⟨.noMatch ws, k⟩)) :
    oExprCount E ⟨0, true⟩ input ≤ exprCount E input := by
  obtain ⟨log, r, hr, he⟩ : ∃ log r, runStart E input = .done log r ∧ errorsOf log = [] := by
    rcases h with ⟨v, h⟩ | ⟨q, ws, k, h⟩
    · exact clean_run h (.inl ⟨v, rfl⟩)
    · exact clean_run h (.inr ⟨q, ws, k, rfl⟩)
  obtain ⟨log', r', s, hr', -, -, -⟩ := memo_start (E := E) (o := ⟨0, true⟩) rfl input
  unfold oExprCount exprCount
  rw [hr, hr']
  exact (memo_no_more hr hr' he).count_le _

/-- **C121.** For such texts `Memoize` can be added to any maximum that suffices without it. -/
theorem C121_same_maximum (max : Nat) (input : List Sym) (hmax : exprCount E input ≤ max)
    (h : (∃ v, parse E input = some (.value v)) ∨ ∃ q ws k, parse E input = some (.error q ⟨.noMatch ws, k⟩)) :
    oParse E ⟨max, true⟩ input = (parse E input).map .out := by
  refine (C121_any_options E ⟨max, true⟩ input).resolve_right fun ⟨at_, hx⟩ => ?_
  have hle := C121_no_more_work E input h
  obtain ⟨log, r, s, hr, -, -, hlim⟩ := memo_start (E := E) (o := ⟨max, true⟩) rfl input
  obtain ⟨log0, r0, s0, hr0, -, -, -⟩ := memo_start (E := E) (o := ⟨0, true⟩) rfl input
  have h0 := C121_same_outcome E input
  rcases pre_start (E := E) (o := ⟨max, true⟩) input with he | ⟨l, c, s1, h1, h2 | ⟨suf, r3, s3, h2⟩⟩
  · unfold oParse at hx h0
    rw [he] at hx
    rw [hx] at h0
    obtain ⟨l, r, -, -, hp⟩ := parse_big (E := E) input
    rw [hp] at h0
    cases h0
  · rw [hr0] at h2
    cases h2
  · rw [hr] at h1
    cases h1
    have hl := hlim c rfl
    have hcnt : oExprCount E ⟨0, true⟩ input = ticks (log ++ .tick :: suf) := by
      unfold oExprCount
      rw [h2]
      rfl
    rw [ticks_append, ticks_cons] at hcnt
    have hm : max ≤ (⟨max, true⟩ : Opts).limit := by
      unfold Opts.limit
      split
      · rename_i h; dsimp only at h; omega
      · exact Nat.le_refl _
    omega

/-! A query, a text with a wrong value, and a text with nothing where a clause is expected: what the parser
returns without and with the option. The runs are different (1,086 evaluations and 320). -/

/-- Place, kind and length of the first error. -/
def oError : Option OParseOut → Option (Loc × RecErr)
  | some (.out (.error l e)) => some (l, e)
  | _ => none

/-- Without options. -/
def pError : Option ParseOut → Option (Loc × RecErr)
  | some (.error l e) => some (l, e)
  | _ => none

example : exprCount testEnv ("a:1 AND b:2".toList.map .ok) = 1086 ∧
    oExprCount testEnv ⟨0, true⟩ ("a:1 AND b:2".toList.map .ok) = 320 := by decide +kernel
example : ((oOutcome (oParse testEnv ⟨0, true⟩ ("a:1 AND b:2".toList.map .ok))).bind id).isSome = true := by decide +kernel
example : ((oError (oParse testEnv ⟨0, true⟩ ("a:x AND b:2".toList.map .ok))).map fun x => (x.1.off, x.2.kind)) =
    some (2, .unknownValue "x".toList) := by decide +kernel
example : ((oError (oParse testEnv ⟨0, true⟩ ("a:1 AND ".toList.map .ok))).map fun x => (x.1.off, x.2.kind)) =
    ((pError (parse testEnv ("a:1 AND ".toList.map .ok))).map fun x => (x.1.off, x.2.kind)) ∧
    ((oError (oParse testEnv ⟨0, true⟩ ("a:1 AND ".toList.map .ok))).map fun x => x.1.off) = some 8 := by decide +kernel
/-- A maximum too small even with the option, and one that is enough only with the option. -/
example : oOutcome (oParse testEnv ⟨319, true⟩ ("a:1 AND b:2".toList.map .ok)) = some none ∧
    oOutcome (oParse testEnv ⟨320, false⟩ ("a:1 AND b:2".toList.map .ok)) = some none ∧
    ((oOutcome (oParse testEnv ⟨320, true⟩ ("a:1 AND b:2".toList.map .ok))).bind id).isSome = true := by decide +kernel
example : 312 * (("a:1 AND b:2".toList.map Sym.ok).length + 1) < (⟨3745, true⟩ : Opts).limit := by decide
example : ∃ n, Query testEnv "a:1 AND b:2".toList n := query_of_reads testEnv (by decide +kernel)
/-- A text with a list of what was expected. -/
example : ((pError (parse testEnv ("a:1 AND ".toList.map .ok))).map fun x => match x.2.kind with | .noMatch _ => true | _ => false) =
    some true := by decide +kernel

end Aql
