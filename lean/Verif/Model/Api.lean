import Verif.Model.Peg
import Verif.Model.Messages
/-!
`NewMatcher` on the text of a query.
-/

namespace Aql

/-- jsonmatcher.go:19-32, `NewMatcher`. `none` would mean that the parser does not return. -/
def newMatcher (E : Env) (query : List UInt8) : Option (GoM (Except PErr (Matcher × List Msg))) :=
  (grammarOut E (decode query)).map (newMatcherFrom E ((decode query).map Sym.rune))

end Aql
