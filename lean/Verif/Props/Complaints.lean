import Verif.Props.EndToEnd
import Verif.Proofs.Complaint
/-!
Property C89: what is said about comparisons that break the typing rules.
-/

namespace Aql

open Spec

variable (E : Env)

/-- **C89.** The error of the validator on a comparison, with its text and its position, is exactly what
`Complains` lists for it. -/
theorem C89_comparison_exact (op : Op) (f : List Str) (vs : List Val) (pos : Pos) (e : PErr) :
    opValidator E (.expr op f vs pos) = .ok (some e) ↔ Complains E op vs pos e :=
  validateExpr_iff

/-- **C89.** There is something to say about a comparison iff it breaks a typing rule. -/
theorem C89_complaint_iff (op : Op) (vs : List Val) (pos : Pos) :
    (∃ e, Complains E op vs pos e) ↔ ¬ ExprOk E op vs := by
  obtain ⟨r, h1, h2⟩ := validateExpr_spec E op vs pos
  simp only [← validateExpr_iff, h1, Except.ok.injEq, ← h2]
  cases r <;> simp

/-- **C89.** A text with a typing error is rejected with what is to be said about the first comparison that
breaks a rule; this is also the error of NewMatcher. -/
theorem C89_rejected {σ : Type} (visitors : List (Visitor σ)) (st : VState σ) (query : List UInt8) (n : Node)
    (hn : grammarOut E (decode query) = some (.ok n)) (hbad : ¬ AllOk E n) :
    ∃ e, parseQuery E visitors st query = some (.ok (st, .error e)) ∧ newMatcher E query = some (.ok (.error e)) ∧
      ∃ before op f vs pos after, comparisons n = before ++ .expr op f vs pos :: after ∧
        (∀ x ∈ before, AllOk E x) ∧ Complains E op vs pos e := by
  obtain ⟨s, e, -, h1, h2, -⟩ := C61_validation_error_position E visitors st query n hn hbad
  refine ⟨e, h1, h2, ?_⟩
  obtain ⟨e', he, before, c, after, h3, h4, h5, h6⟩ := finishParse_rejected E visitors st n hbad
  have : e' = e := by
    unfold parseQuery at h1
    rw [hn, Option.map_some, he] at h1
    cases h1; rfl
  subst this
  obtain ⟨op, f, vs, pos, rfl⟩ := comparisons_expr n c (by rw [h3]; simp)
  exact ⟨before, op, f, vs, pos, after, h3, h4, validateExpr_iff.1 h6⟩

-- one text for each kind of complaint
example : (["a:<\"x\"", "a:~5", "a:<(1,2)", "a:><(1,2,3)", "a:(true,1,false)", "a:(\"x\",\"x\")",
      "a:><(2020-01-01,5)", "a:><(5,2020-01-01)"].map fun s => (rejection testEnv s.toList).map (String.ofList ·.2)) =
    [some "[<] operation needs numeric arguments", some "[~] operation needs string, or boolean arguments",
     some "[<] operation requires exactly 1 arguments", some "[><] operation requires exactly 2 arguments",
     some "conflicting boolean value [false] (value 3/3)", some "duplicate argument [\"x\"] (value 2/2)",
     some "second argument must also be a datetime value",
     some "[><] operation requires the second argument be greater"] := by
  decide +kernel

-- the two zeros are equal but print differently, so they are not duplicates
example : (["a:(0.0,-0.0)", "a:(0,-0.0)", "a:(0,0.0)", "a:(-0.0,-0.00)"].map fun s =>
      (rejection testEnv s.toList).map (String.ofList ·.2)) =
    [none, none, some "duplicate argument [0] (value 2/2)", some "duplicate argument [-0] (value 2/2)"] ∧
    getStringVal testEnv (.num "-0".toList) = some "-0".toList ∧
    getNumberVal testEnv (.num "-0".toList) = getNumberVal testEnv (.num "0".toList) := by
  decide +kernel

end Aql
