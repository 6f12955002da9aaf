import Verif.Model.Float64
import Verif.Model.Json
/-!
Truth of JSON values as the comments in json_values.go:172-181 and 187-190 describe it.
-/

namespace Aql.Spec

/-- json_values.go:187-190: "all strings are truthy, except" these. -/
def FalsyText (s : Str) : Prop := s = [] ∨ s = "0".toList ∨ s = "false".toList

/-- A character with its case ignored; the long s counts as an s. -/
def plainCase (c : Char) : Char := if c = 'ſ' then 's' else c.toLower

end Aql.Spec
