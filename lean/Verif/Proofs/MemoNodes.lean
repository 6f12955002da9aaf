import Verif.Model.Options
import Verif.Proofs.PegInv
/-!
The expressions of the grammar by their addresses, and how many there are.
-/

namespace Aql

/-- The `i`-th child of an expression. -/
def PExpr.child : PExpr → Nat → Option PExpr
  | .action _ e, 0 => some e
  | .seq es, i => es[i]?
  | .choice es, i => es[i]?
  | .label _ e, 0 => some e
  | .not e, 0 => some e
  | .star e, 0 => some e
  | .plus e, 0 => some e
  | .opt e, 0 => some e
  | .recover _ e _, 0 => some e
  | .recover _ _ r, 1 => some r
  | _, _ => none

/-- The expression at a path of a rule, innermost step first. -/
def pathAt (r : Rule) : List Nat → Option PExpr
  | [] => some (grammar r)
  | i :: p => (pathAt r p).bind (·.child i)

/-- The expression at an address. -/
def nodeAt (n : NodeId) : Option PExpr := pathAt n.1 n.2

theorem nodeAt_child {n : NodeId} {e e' : PExpr} {i : Nat} (h : nodeAt n = some e) (hc : e.child i = some e') :
    nodeAt (n.child i) = some e' := by
  unfold nodeAt at h ⊢
  simp [NodeId.child, pathAt, h, hc]

theorem nodeAt_root (r : Rule) : nodeAt (r, []) = some (grammar r) := rfl

mutual
/-- The paths of an expression at a path and of the expressions in it. -/
def pathsOf (p : List Nat) : PExpr → List (List Nat)
  | .action _ e => p :: pathsOf (0 :: p) e
  | .seq es => p :: pathsAll p 0 es
  | .choice es => p :: pathsAll p 0 es
  | .label _ e => p :: pathsOf (0 :: p) e
  | .not e => p :: pathsOf (0 :: p) e
  | .star e => p :: pathsOf (0 :: p) e
  | .plus e => p :: pathsOf (0 :: p) e
  | .opt e => p :: pathsOf (0 :: p) e
  | .recover _ e r => p :: (pathsOf (0 :: p) e ++ pathsOf (1 :: p) r)
  | _ => [p]
def pathsAll (p : List Nat) (i : Nat) : List PExpr → List (List Nat)
  | [] => []
  | e :: es => pathsOf (i :: p) e ++ pathsAll p (i + 1) es
end

theorem mem_pathsOf (p : List Nat) (e : PExpr) : p ∈ pathsOf p e := by
  cases e <;> simp [pathsOf]

theorem pathsAll_sub {p q : List Nat} {e : PExpr} (es : List PExpr) : ∀ i j, es[i]? = some e →
    q ∈ pathsOf ((j + i) :: p) e → q ∈ pathsAll p j es := by
  induction es with
  | nil => intro i j h; simp at h
  | cons x es ih =>
    intro i j h hq
    simp only [pathsAll, List.mem_append]
    cases i with
    | zero =>
      simp at h
      subst h
      exact .inl hq
    | succ i =>
      rw [List.getElem?_cons_succ] at h
      exact .inr (ih i (j + 1) h (by rwa [show j + 1 + i = j + (i + 1) by omega]))

theorem pathsOf_child {p q : List Nat} {e e' : PExpr} {i : Nat} (h : e.child i = some e')
    (hq : q ∈ pathsOf (i :: p) e') : q ∈ pathsOf p e := by
  have hall : ∀ es : List PExpr, es[i]? = some e' → q ∈ pathsAll p 0 es :=
    fun es he => pathsAll_sub es i 0 he (by rwa [Nat.zero_add])
  unfold PExpr.child at h
  split at h
  all_goals first
    | (cases h; simp [pathsOf, hq]; done)
    | (simp only [pathsOf, List.mem_cons]; exact .inr (hall _ h))
    | cases h

theorem paths_complete (r : Rule) (p : List Nat) : ∀ e, pathAt r p = some e →
    p ∈ pathsOf [] (grammar r) ∧ ∀ q ∈ pathsOf p e, q ∈ pathsOf [] (grammar r) := by
  induction p with
  | nil =>
    intro e h
    cases h
    exact ⟨mem_pathsOf _ _, fun q hq => hq⟩
  | cons i p ih =>
    intro e h
    unfold pathAt at h
    rcases hp : pathAt r p with _ | e0
    · rw [hp] at h; cases h
    · rw [hp] at h
      have := ih e0 hp
      have hs : ∀ q ∈ pathsOf (i :: p) e, q ∈ pathsOf [] (grammar r) :=
        fun q hq => this.2 q (pathsOf_child h hq)
      exact ⟨hs _ (mem_pathsOf _ _), hs⟩

/-- All rules. -/
def allRules : List Rule := [
  .Start, .Query, .OrClause, .AndClause, .NotClause, .Comparison, .Field, .FieldPiece,
  .UnquotedFieldPiece, .QuotedFieldPiece, .Star, .ValueList, .Value, .QuotedValue, .EndingQuote,
  .EscapedChar, .EscapeSequence, .SingleCharEscape, .UnicodeEscape, .HexDigit, .ValueChars,
  .RegexValue, .RegexChar, .RegexEscape, .EndingSlash, .BareValue, .BoolValue, .FloatValue,
  .IntValue, .IPValue, .Octet, .CIDRBlock, .Timestamp, .dateTime, .fullDate, .dateFullyear,
  .dateMonth, .dateMday, .timeHour, .timeMinute, .timeSecond, .timeSecfrac, .timeNumoffset,
  .timeOffset, .partialTime, .fullTime, .Digit4, .Digit2, .logicalOR, .logicalAND, .logicalNOT,
  .opNoArgs, .opComp, .ws, .space, .EOL, .EOF, .ErrUntermStr, .ErrUntermRegex]

theorem mem_allRules (r : Rule) : r ∈ allRules := by cases r <;> decide

/-- The addresses of all expressions. -/
def allNodes : List NodeId := allRules.flatMap fun r => (pathsOf [] (grammar r)).map fun p => (r, p)

theorem mem_allNodes {n : NodeId} {e : PExpr} (h : nodeAt n = some e) : n ∈ allNodes := by
  unfold allNodes
  rw [List.mem_flatMap]
  exact ⟨n.1, mem_allRules _, List.mem_map.2 ⟨n.2, (paths_complete n.1 n.2 e h).1, rfl⟩⟩

theorem allNodes_length : allNodes.length = 312 := by decide +kernel

end Aql
