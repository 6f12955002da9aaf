import Verif.Model.Wasm
import Verif.Model.JsonOut
/-!
wasm/aqlparse/index.html: what the demo page does with the text typed into it. Not modelled: the style
sheets, loading the program, and the library that paints the highlights. Texts are sequences of
characters, lone surrogates do not occur; the argument of `parseAQL` is their UTF-8 encoding (syscall/js).
-/

namespace Aql

/-- index.html:42-46, `msgicon`. -/
def msgIcon : MsgType → Str
  | .warning => "warning".toList
  | .hint => "brain".toList
  | .error => "times-circle".toList

/-- wasm/aqlparse/main.go:50-57: the type of a message as the page gets it. -/
def msgTypeName : MsgType → Str
  | .hint => "hint".toList
  | .warning => "warning".toList
  | .error => "error".toList

/-- index.html:47-49, `newMsg`. -/
def newMsg (type : MsgType) (content : Str) : Str :=
  "<div class=\"alert alert-".toList ++ msgTypeName type ++
  " alert-white rounded\"><div class=\"icon\"><i class=\"fa fa-".toList ++ msgIcon type ++
  "\"></i></div><alerttitle>".toList ++ msgTypeName type ++ "</alerttitle> ".toList ++ content ++
  "</div>".toList

/-- What the page shows: the text of `output`, the markup put into `#messages`, whether the latter is
visible, and the highlighted spans (index.html:73-78). -/
structure PageView where
  output : Str
  messages : List Str
  visible : Bool
  highlights : List (MsgType × Int × Int)
  deriving DecidableEq

variable (E : Env) (short : Bool)

/-- index.html:52-93, `aqlUpdate`, for the text `input`. Every message has a member `start`
(main.go:35-40 and 58-63), so line 72 always holds. -/
def aqlUpdate (input : Str) : Option (GoM PageView) :=
  if input = [] then some (.ok ⟨" ".toList, [], false, []⟩)
  else (pWrap E (input.flatMap String.utf8EncodeChar)).map fun
    | .error p => .error p
    | .ok (root, ms) =>
      if ms = [] then
        .ok ⟨match root with
          | some n => treeText short n
          | none => [], [], false, []⟩
      else .ok ⟨[], ms.map fun m => newMsg m.type m.msg, true, ms.map fun m => (m.type, m.start, m.stop)⟩

end Aql
