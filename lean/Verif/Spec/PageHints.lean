import Verif.Model.Wasm
import Verif.Spec.Hints
/-!
Which messages the page shows about a comparison.
-/

namespace Aql.Spec

/-- A message as the page gets it: the span has as many bytes as the position has characters. -/
def onPage (m : Msg) : JsMsg := ⟨m.type, m.text, m.pos.offset, m.pos.offset + m.pos.len⟩

/-- The messages one operand of a comparison at `epos` calls for on the page: the one on `~` is at the
comparison, the other ones on patterns are those of the matcher. -/
noncomputable def pageShows (E : Env) (op : Op) (field : List Str) (epos : Pos) : Val → List Msg
  | .time _ _ _ pos => saying (op = .EQ) ⟨.warning, pos,
      "exact matches on datetime values currently match the time EXACTLY, consider using [:~] or a numeric comparison".toList⟩
  | .regex sv src pos =>
    saying (op = .SIM) ⟨.warning, epos,
      "Similarity comparison is no longer necessary for regular expressions and will eventually be removed. Please use the normal comparison operator - field:/<regular expression/".toList⟩ ++
    told E .EQ field (.regex sv src pos)
  | _ => []

/-- The messages a comparison calls for on the page, operand by operand. -/
noncomputable def shownBy (E : Env) : Node → List JsMsg
  | .expr op field vs pos => (vs.flatMap (pageShows E op field pos)).map onPage
  | _ => []

end Aql.Spec
