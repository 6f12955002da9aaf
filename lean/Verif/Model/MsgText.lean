import Verif.Model.Visitors
import Verif.Model.JsonOut
/-!
parser/message.go and aql.peg: the texts of messages and errors. Message types other than the three are not
constructed (`msgMin` and `msgMax` bound the enumeration).
-/

namespace Aql

/-- parser/message.go:25-36, `typeStr`. -/
def MsgType.name : MsgType → Str
  | .hint => "HINT".toList
  | .warning => "WARNING".toList
  | .error => "ERROR".toList

/-- parser/message.go:53-58, `ParserMessage.String`. -/
def Msg.toStr (m : Msg) : Str :=
  if m.pos.line = 0 ∨ m.pos.col = 0 ∨ m.pos.offset = -1 then m.type.name ++ ": ".toList ++ m.text
  else m.type.name ++ " [".toList ++ jsonInt m.pos.line ++ ":".toList ++ jsonInt m.pos.col ++ "(".toList ++
    jsonInt m.pos.offset ++ ")]: ".toList ++ m.text

/-- internal/grammar/aql.peg:62-65, `ParseError.Error`. -/
def PErr.errorText (e : PErr) : Str :=
  jsonInt e.pos.line ++ ":".toList ++ jsonInt e.pos.col ++ "(".toList ++ jsonInt e.pos.offset ++ "): ".toList ++ e.msg

/-- parser/message.go:13-15 and 47-51: a message as encoding/json sees it through a pointer, so that
`MessageType.MarshalJSON` is called (tapes hold pointers, visitors.go:103). -/
def Msg.json (m : Msg) : JOut :=
  .obj [("position".toList, m.pos.json), ("message".toList, .str m.text), ("type".toList, .str m.type.name)]

end Aql
