import Verif.Proofs.Limit
import Verif.Props.Depth
/-!
C116: what the option `MaxExpressions` does.
-/

namespace Aql
open Spec

variable (E : Env)

/-- Expressions that the parser evaluates without a maximum. -/
def exprCount (input : List Sym) : Nat :=
  match runStart E input with
  | .oof => 0
  | .done log _ => log.count .tick

/-- Expressions that the parser evaluates with the options. -/
def oExprCount (o : Opts) (input : List Sym) : Nat :=
  match oRunStart E o input with
  | .oof => 0
  | .done log _ _ => log.count .tick

/-- Is there a maximum? -/
def HasMax (o : Opts) : Prop := 0 < o.maxExprs ∧ o.maxExprs < maxUint64

variable {E}

theorem lim_cases {o : Opts} (hm : o.memoize = false) (h : o.maxExprs ≤ maxUint64) (input : List Sym) :
    (∃ s log r, runStart E input = .done log r ∧ oRunStart E o input = .done log (.ofRes r.bare) s ∧
      (HasMax o → ticks log ≤ o.maxExprs)) ∨
    (HasMax o ∧ ∃ s pre suf c r, runStart E input = .done (pre ++ .tick :: suf) r ∧ ticks pre = o.maxExprs ∧
      oRunStart E o input = .done pre (.panic none c) s) := by
  obtain ⟨l, r, -, hr, -⟩ := parse_big (E := E) input
  have hL : HasMax o ↔ o.limit ≠ maxUint64 := by
    unfold HasMax Opts.limit
    split
    · simp; omega
    · omega
  have hl : HasMax o → o.limit = o.maxExprs := by
    rintro ⟨h0, -⟩
    unfold Opts.limit
    rw [if_neg (by omega)]
  obtain ⟨s, ⟨h1, h2⟩ | ⟨h1, pre, suf, c, h2, h3, h4⟩⟩ := lim_start hm h input hr
  · exact .inl ⟨s, _, r, hr, h1, fun hx => by
      rw [← hl hx]; exact (h2.resolve_left (hL.1 hx)).2⟩
  · have hx := hL.2 h1
    exact .inr ⟨hx, s, pre, suf, c, r, by rw [hr, h2], by rw [h3, hl hx], h4⟩

variable (E)

/-- **C116.** Below the maximum, and without one, the option changes nothing. -/
theorem C116_within_the_maximum (o : Opts) (hm : o.memoize = false) (h : o.maxExprs ≤ maxUint64)
    (input : List Sym) (hw : HasMax o → exprCount E input ≤ o.maxExprs) :
    oParse E o input = (parse E input).map .out := by
  unfold exprCount at hw
  unfold oParse parse
  rcases lim_cases (E := E) hm h input with ⟨s, log, r, h1, h2, h3⟩ | ⟨hx, s, pre, suf, c, r, h1, h2, h3⟩
  · rw [h1, h2]
    exact congrArg some (oFinish_bare log r)
  · have := hw hx
    rw [h1] at this
    have ht := ticks_append pre (.tick :: suf)
    rw [ticks_cons] at ht
    unfold ticks at ht h2
    dsimp only at this
    omega

/-- **C116.** Above the maximum the parser stops after exactly that many evaluations. It reports the first
error recorded up to there, or else that the maximum is reached. -/
theorem C116_beyond_the_maximum (o : Opts) (hm : o.memoize = false) (hx : HasMax o) (input : List Sym)
    (hw : o.maxExprs < exprCount E input) :
    ∃ done later r, runStart E input = .done (done ++ .tick :: later) r ∧ oExprCount E o input = o.maxExprs ∧
      done.count .tick = o.maxExprs ∧
      ((∃ l e es, errorsOf done = (l, e) :: es ∧ oParse E o input = some (.out (.error l e))) ∨
        (errorsOf done = [] ∧ ∃ at_, oParse E o input = some (.maxExprs at_))) := by
  unfold exprCount at hw
  rcases lim_cases (E := E) hm hx.2.le input with ⟨s, log, r, h1, h2, h3⟩ | ⟨hx, s, pre, suf, c, r, h1, h2, h3⟩
  · rw [h1] at hw
    have := h3 hx
    unfold ticks at this
    dsimp only at hw
    omega
  · refine ⟨pre, suf, r, h1, ?_, h2, ?_⟩
    · unfold oExprCount
      rw [h3]
      exact h2
    · unfold oParse
      rw [h3]
      rcases he : errorsOf pre with _ | ⟨⟨l, e⟩, es⟩
      · exact .inr ⟨rfl, c.loc, by simp [oFinish, he]⟩
      · exact .inl ⟨l, e, es, rfl, by simp [oFinish, he]⟩

/-- **C116.** The parser accepts a text with the option exactly if it accepts it without, and needs no more
than the maximum for it; the result is the same. -/
theorem C116_accepts_iff (o : Opts) (hm : o.memoize = false) (h : o.maxExprs ≤ maxUint64) (input : List Sym)
    (v : PV) : oParse E o input = some (.out (.value v)) ↔
      parse E input = some (.value v) ∧ (HasMax o → exprCount E input ≤ o.maxExprs) := by
  constructor
  · intro ho
    have hw : HasMax o → exprCount E input ≤ o.maxExprs := by
      intro hx
      by_contra hc
      obtain ⟨-, -, -, -, -, -, ⟨l, e, es, -, hr⟩ | ⟨-, at_, hr⟩⟩ :=
        C116_beyond_the_maximum E o hm hx input (Nat.lt_of_not_le hc) <;> rw [hr] at ho <;> cases ho
    rw [C116_within_the_maximum E o hm h input hw] at ho
    rcases hp : parse E input with _ | p
    · rw [hp] at ho; cases ho
    · rw [hp] at ho; cases ho; exact ⟨rfl, hw⟩
  · rintro ⟨hp, hw⟩
    rw [C116_within_the_maximum E o hm h input hw, hp]
    rfl

/-- **C116.** The parser never evaluates more than the maximum. -/
theorem C116_never_more (o : Opts) (hm : o.memoize = false) (hx : HasMax o) (input : List Sym) :
    oExprCount E o input = min (exprCount E input) o.maxExprs := by
  unfold exprCount oExprCount
  rcases lim_cases (E := E) hm hx.2.le input with ⟨s, log, r, h1, h2, h3⟩ | ⟨hx, s, pre, suf, c, r, h1, h2, h3⟩
  · have := h3 hx
    unfold ticks at this
    rw [h1, h2]
    dsimp only
    omega
  · have ht := ticks_append pre (.tick :: suf)
    rw [ticks_cons] at ht
    unfold ticks at ht h2
    rw [h1, h3]
    dsimp only
    omega

theorem exprCount_text (s : Str) : exprCount E (s.map .ok) = parseCost E s := rfl

/-- **C116.** A maximum that is safe for all queries up to a length and a depth of parentheses: none of them
is refused. -/
theorem C116_safe_maximum (o : Opts) (hm : o.memoize = false) (h : o.maxExprs ≤ maxUint64) (len d : Nat)
    (hmax : 160000 * (len + 1) ^ 3 * 4 ^ d ≤ o.maxExprs) (s : Str) (n : Node) (hs : s.length ≤ len)
    (hq : QueryIn E d s n) : oParse E o (s.map .ok) = (parse E (s.map .ok)).map .out := by
  refine C116_within_the_maximum E o hm h _ fun _ => ?_
  rw [exprCount_text]
  refine (C115_depth_cost E d s n hq).trans (Nat.le_trans ?_ hmax)
  exact Nat.mul_le_mul_right _ (Nat.mul_le_mul_left _ (Nat.pow_le_pow_left (by omega) _))

theorem parse_of_query {s : Str} {n : Node} (h : Query E s n) : ∃ v, parse E (s.map .ok) = some (.value v) := by
  have hg := grammarOut_iff.2 ⟨s, rfl, h⟩
  unfold grammarOut at hg
  rw [Option.map_eq_some_iff] at hg
  obtain ⟨p, hp, he⟩ := hg
  cases p with
  | error l e => cases he
  | value v => exact ⟨v, hp⟩

/-- **C116.** No maximum is safe for all queries: under each one some query that the parser accepts without
it is refused. -/
theorem C116_no_safe_maximum (o : Opts) (hm : o.memoize = false) (hx : HasMax o) :
    ∃ s n, Query E s n ∧ ∃ at_, oParse E o (s.map .ok) = some (.maxExprs at_) := by
  obtain ⟨⟨r, hq⟩, hc⟩ := C08_nested_parentheses_cost E "a:exists".toList (exists_text E) o.maxExprs
  refine ⟨_, r, hq, ?_⟩
  have hlt : o.maxExprs < exprCount E ((nest o.maxExprs "a:exists".toList).map .ok) := by
    rw [exprCount_text]
    refine Nat.lt_of_lt_of_le ?_ hc
    exact Nat.lt_of_lt_of_le (Nat.lt_succ_self _) (Nat.lt_pow_self (by omega)).le
  obtain ⟨done, later, r', h1, -, -, ⟨l, e, es, he, -⟩ | ⟨-, h2⟩⟩ := C116_beyond_the_maximum E o hm hx _ hlt
  · exfalso
    obtain ⟨m, hv⟩ := parse_of_query E hq
    unfold parse at hv
    rw [h1] at hv
    have hf : errorsOf (done ++ .tick :: later) = (l, e) :: (es ++ errorsOf (.tick :: later)) := by
      unfold errorsOf at he ⊢
      rw [List.filterMap_append, he]; rfl
    simp [finish, hf] at hv
  · exact h2

/-! A query of 11 characters: the number of evaluations, and the oOutcome with that maximum, with a maximum
that is one less, and without one. -/

def oOutcome : Option OParseOut → Option (Option Node)
  | some (.out (.value (.node n))) => some (some n)
  | some (.maxExprs _) => some none
  | _ => none

example : ∃ n, Query testEnv "a:1 AND b:2".toList n :=
  query_of_reads testEnv (by decide +kernel)
example : exprCount testEnv ("a:1 AND b:2".toList.map .ok) = 1086 := by decide +kernel
example : ((oOutcome (oParse testEnv ⟨1086, false⟩ ("a:1 AND b:2".toList.map .ok))).bind id).isSome = true := by
  decide +kernel
example : oOutcome (oParse testEnv ⟨1085, false⟩ ("a:1 AND b:2".toList.map .ok)) = some none := by decide +kernel
example : HasMax ⟨1085, false⟩ ∧ HasMax ⟨1086, false⟩ ∧ ¬ HasMax ⟨0, false⟩ := by
  unfold HasMax maxUint64; decide
/-- A text with an error that is found early: beyond the maximum the parser reports that error. -/
example : (oParse testEnv ⟨400, false⟩ ("a:x AND b:2".toList.map .ok)).bind (fun
    | .out (.error l e) => some (l.off, e.kind)
    | _ => none) = some (2, .unknownValue "x".toList) := by decide +kernel

end Aql
