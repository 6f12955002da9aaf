import Verif.Model.Peg
import Verif.Proofs.HtmlExact
import Verif.Spec.Complaint
import Verif.Props.Graph
/-!
Property C67: what the label of a comparison in the query graph shows. `Spec.shownCells` reads a label
as HTML (`Spec/Html`).
-/

namespace Aql

open Spec

variable (E : Env)

/-- How the types of values are called in a graph. -/
def Spec.typeWord : ValType → Str
  | .int => "integer".toList
  | .float => "float".toList
  | .string => "string".toList
  | .bool => "boolean".toList
  | .regex => "regexp".toList
  | .net => "network".toList
  | .time => "datetime".toList

/-- The texts that should be shown for a comparison: field, operator, then type and text of each
value. -/
def Spec.cellsFor (op : Op) (f : List Str) (vs : List Val) : List Str :=
  [List.intercalate ['.'] f, "op".toList, opSign op] ++
  if vs = [] then [] else "Values".toList :: vs.flatMap fun v => [typeWord (typeOf v), v.toStr E]

theorem typeWord_graphType (t : ValType) : typeWord t = graphType t := by cases t <;> rfl

theorem mem_joinDots {c : Char} (hc : c ≠ '.') : ∀ f, c ∈ joinDots f ↔ ∃ x ∈ f, c ∈ x
  | [] => by simp [joinDots]
  | [p] => by simp [joinDots]
  | p :: q :: ps => by
    rw [joinDots, List.mem_append, List.mem_cons, mem_joinDots hc (q :: ps)]
    · simp [hc]
    · simp

theorem joinDots_free (f : List Str) : ('<' ∉ joinDots f ∧ '&' ∉ joinDots f) ↔ ∀ x ∈ f, '<' ∉ x ∧ '&' ∉ x := by
  rw [mem_joinDots (by decide), mem_joinDots (by decide)]
  constructor
  · rintro ⟨h1, h2⟩ x hx
    exact ⟨fun h => h1 ⟨x, hx, h⟩, fun h => h2 ⟨x, hx, h⟩⟩
  · intro h
    exact ⟨fun ⟨x, hx, h'⟩ => (h x hx).1 h', fun ⟨x, hx, h'⟩ => (h x hx).2 h'⟩

/-- **C67 (partial).** If neither the field nor a value contains `<` or `&`, the label is well formed
and shows exactly the field, the operator and the values. -/
theorem C67_cells_partial (op : Op) (f : List Str) (vs : List Val) (hf : ∀ x ∈ f, '<' ∉ x ∧ '&' ∉ x)
    (hv : ∀ v ∈ vs, '<' ∉ v.toStr E ∧ '&' ∉ v.toStr E) :
    shownCells (exprLabel E op f vs) = some (cellsFor E op f vs) := by
  unfold exprLabel
  rw [rd_label ((joinDots_free f).2 hf) (by decide) (by cases op <;> decide)]
  · unfold cellsFor
    simp only [List.map_eq_nil_iff, List.flatMap_map, ← joinDots_inter, opSign_text, typeWord_graphType, typeOf_eq]
    rfl
  · intro v hm
    obtain ⟨x, hx, rfl⟩ := List.mem_map.1 hm
    refine ⟨?_, ?_, hv x hx⟩
    · generalize x.type = y
      dsimp only
      cases y <;> decide
    · generalize x.type = y
      dsimp only
      cases y <;> decide

/-- **C67, exact form.** The label shows what it should just when no field and no value contains `<` or
`&`: markup and references never come out as they were written. -/
theorem C67_cells_exact (op : Op) (f : List Str) (vs : List Val) :
    shownCells (exprLabel E op f vs) = some (cellsFor E op f vs) ↔
      (∀ x ∈ f, '<' ∉ x ∧ '&' ∉ x) ∧ ∀ v ∈ vs, '<' ∉ v.toStr E ∧ '&' ∉ v.toStr E := by
  refine ⟨fun h => ?_, fun h => C67_cells_partial E op f vs h.1 h.2⟩
  rw [← joinDots_free]
  by_contra hcon
  have hm : Marked (joinDots f) ∨ ∃ v ∈ vs, Marked (v.toStr E) := by
    by_contra hno
    push Not at hno
    refine hcon ⟨⟨fun h => hno.1 (.inl h), fun h => hno.1 (.inr h)⟩, fun v hv => ?_⟩
    exact ⟨fun h => hno.2 v hv (.inl h), fun h => hno.2 v hv (.inr h)⟩
  unfold exprLabel at h
  have hlt := rd_label_any (by decide) (by cases op <;> decide) (fun v hmem => by
    obtain ⟨x, hx, rfl⟩ := List.mem_map.1 hmem
    refine ⟨?_, ?_⟩
    · generalize x.type = y
      dsimp only
      cases y <;> decide
    · generalize x.type = y
      dsimp only
      cases y <;> decide) h (by
    rcases hm with hm | ⟨v, hv, hm⟩
    · exact .inl hm
    · exact .inr ⟨_, List.mem_map.2 ⟨v, hv, rfl⟩, hm⟩)
  refine absurd hlt ?_
  unfold cellsFor
  simp only [List.map_eq_nil_iff, List.flatMap_map, ← joinDots_inter, opSign_text, typeWord_graphType, typeOf_eq]
  exact Nat.lt_irrefl _

/-- **C67, colours.** Each value is shown on a ground of its own colour for each type. -/
theorem C67_colours (a b : ValType) : graphColor a = graphColor b ↔ a = b := by
  refine ⟨fun h => ?_, congrArg _⟩
  cases a <;> cases b <;> first | rfl | exact absurd h (by decide)

/-- The label drawn for a query text that is one comparison, and what it should show. -/
def labelOf (s : Str) : Option (Option (List Str) × List Str) :=
  match grammarOut E (s.map .ok) with
  | some (.ok (.expr op f vs _)) => some (shownCells (exprLabel E op f vs), cellsFor E op f vs)
  | _ => none

-- operators are shown, although they contain `<` and `>`
example : labelOf testEnv "a.b:><(1,2)".toList = some (some (["a.b", "op", "><", "Values", "integer", "1",
    "integer", "2"].map String.toList), ["a.b", "op", "><", "Values", "integer", "1", "integer", "2"].map String.toList) := by
  decide +kernel

/-- **C67 (refuted).** Values and fields are not escaped: the label of `a:"<b>"` is not well formed, nor
is that of the field name `"x&y"`. -/
theorem C67_label_refuted :
    (labelOf testEnv "a:\"<b>\"".toList).map Prod.fst = some none ∧
    (labelOf testEnv "\"x&y\":1".toList).map Prod.fst = some none := by
  decide +kernel

/-- **C67 (refuted).** The label of `a:"&lt;"` is well formed and shows another value. -/
theorem C67_value_refuted : ∃ x y, labelOf testEnv "a:\"&lt;\"".toList = some (some x, y) ∧ x ≠ y :=
  ⟨["a", "op", "==", "Values", "string", "\"<\""].map String.toList,
    ["a", "op", "==", "Values", "string", "\"&lt;\""].map String.toList, by decide +kernel, by decide⟩

end Aql
