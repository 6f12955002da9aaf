import Verif.Model.Basic
/-!
JSON documents as jsonparser sees them after `json.Valid` succeeded.

Numbers and strings keep their raw text (strings: the bytes between the quotes, still escaped);
object members keep source order and duplicates.
-/

namespace Aql

/-- A JSON value: `jsonValue`, json_values.go:12-15, that is the data and `dataType` reported by jsonparser. -/
inductive Json
  | null
  | bool (b : Bool)
  | num (raw : Str)
  | str (raw : Str)
  | arr (items : List Json)
  | obj (members : List (Str × Json))
  deriving Repr

namespace Json

/-- `dataType == jsonparser.Object`, json_values.go:34, 40, 88, 106. -/
def isObj : Json → Bool
  | .obj _ => true
  | _ => false

/-- `dataType == jsonparser.Array`, json_values.go:36, 40, 58, 101. -/
def isArr : Json → Bool
  | .arr _ => true
  | _ => false

/-- `dataType == jsonparser.Null`, expr_null.go:14. -/
def isNull : Json → Bool
  | .null => true
  | _ => false

end Json

/-- Result of `jsonparser.Get(data, key)`: `none` is "not found". -/
abbrev GetRes := GoM (Option Json)

end Aql
