import Verif.Spec.Grammar
import Verif.Spec.Walk
/-!
Which messages the operands of a comparison call for, and what becomes of the errors of visitors.
-/

namespace Aql.Spec

/-- The message, if the condition holds. -/
noncomputable def saying (P : Prop) (m : Msg) : List Msg := open Classical in if P then [m] else []

/-- The parsed pattern is `.*`, with or without line breaks. -/
def AnyRun (r : ReSyn) : Prop := ∃ o subs, r = .mk opStar [.mk o subs] ∧ (o = opAnyChar ∨ o = opAnyCharNotNL)

/-- Somewhere in the pattern, reached only through nodes with no or several parts, is a node with a single
part that is not `*` or `?` (a group or `+`, for example). -/
inductive Unusual : ReSyn → Prop
  | here {op s} : op ≠ opLiteral → op ≠ opStar → op ≠ opQuest → Unusual (.mk op [s])
  | deep {op subs r} : subs.length ≠ 1 → r ∈ subs → Unusual r → Unusual (.mk op subs)

/-- The pattern that is looked at: the one in the outer group if there is one. -/
def Looked (E : Env) (src : Str) (r : ReSyn) : Prop :=
  E.reSyntax src = some (.mk opCapture [r]) ∨ (E.reSyntax src = some r ∧ ∀ s, r ≠ .mk opCapture [s])

/-- The text of the pattern, without slashes at the ends and without a leading `(?i)`. -/
def BareRe (sv re : Str) : Prop :=
  Trimmed sv ("(?i)".toList ++ re) ∨ (Trimmed sv re ∧ ¬ "(?i)".toList <+: re)

/-- The messages one operand calls for. -/
noncomputable def told (E : Env) (op : Op) (field : List Str) : Val → List Msg
  | .str _ pos => saying (op = .SIM) ⟨.warning, pos,
      "Similarity comparison is deprecated for string values. Please use the normal comparison operator - field:\"<string>\"".toList⟩
  | .time _ _ dayOnly pos => saying (op = .EQ ∧ dayOnly = false) ⟨.warning, pos,
      "exact matches on full datetime values match the time EXACTLY, consider using [:] and a short date (YYYY-MM-DD) to match the day or a numeric comparison".toList⟩
  | .regex sv src pos =>
    saying (op = .SIM) ⟨.warning, pos,
      "Similarity comparison is no longer necessary for regular expressions. Please use the normal comparison operator - field:/<regular expression/".toList⟩ ++
    saying ((∃ re, Trimmed sv ("(?i)".toList ++ re)) ∧ ∃ c ∈ sv, 128 ≤ c.toNat) ⟨.warning, pos,
      "Case-insensitive regular expression ".toList ++ sv ++
        " contains unicode characters. This may not work as intended. Consider a fuzzy match - 'field:~(\"value\", \"language\")".toList⟩ ++
    saying (∃ re, BareRe sv re ∧ (".*".toList <+: re ∨ ".*".toList <:+ re)) ⟨.hint, pos,
      "regular expression ".toList ++ sv ++ " does not need to begin or end with \".*\", as this is redundant.".toList⟩ ++
    saying (∃ r, E.reSyntax src = some (.mk opCapture [r])) ⟨.hint, pos,
      "unnecessary outer capturing group \"()\", consider /".toList ++ E.reSubText src ++ "/".toList⟩ ++
    saying (∃ subs, Looked E src (.mk opAlternate subs) ∧ ¬ Unusual (.mk opAlternate subs)) ⟨.hint, pos,
      "if you are doing large string alternations, consider using a multi-string match: such as '".toList ++
        List.intercalate ".".toList field ++ ":(\"one\", \"two\")'".toList⟩ ++
    saying (∃ o first second rest, Looked E src (.mk o (first :: second :: rest)) ∧ AnyRun first) ⟨.hint, pos,
      "leading \".*\" may not do what you think, if you are searching for a term anywhere in a string, consider just \"/word/\"".toList⟩ ++
    saying (∃ o first second more last, Looked E src (.mk o (first :: second :: more ++ [last])) ∧ AnyRun last) ⟨.hint, pos,
      "trailing \".*\" is probably unnecessary".toList⟩
  | _ => []

/-- The messages a comparison calls for, operand by operand. -/
noncomputable def toldBy (E : Env) : Node → List Msg
  | .expr op field vs _ => vs.flatMap (told E op field)
  | _ => []

/-- Visitors run one after the other over a tree, each seeing the state the one before it has left: an error
ends this and is returned. An error of the parser is returned as it is, another one as a failed validation
without position. -/
inductive Visits {σ : Type} (root : Node) : List (Visitor σ) → VState σ → VState σ → Except PErr Node → Prop
  | done {s} : Visits root [] s s (.ok root)
  | next {v vs s s' s'' out} : runList v.visit 0 s (preorder root) = .ok (s', none) →
      Visits root vs s' s'' out → Visits root (v :: vs) s s'' out
  | parse {v vs s s' e} : runList v.visit 0 s (preorder root) = .ok (s', some (.parse e)) →
      Visits root (v :: vs) s s' (.error e)
  | other {v vs s s' m} : runList v.visit 0 s (preorder root) = .ok (s', some (.other m)) →
      Visits root (v :: vs) s s' (.error ⟨⟨0, 0, -1, 0⟩, "validation failure: ".toList ++ m⟩)

end Aql.Spec
