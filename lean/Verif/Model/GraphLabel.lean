import Verif.Model.Graph
/-!
aqlgraph/node_html.go: the text of the label of a comparison, an HTML-like table for graphviz.
-/

namespace Aql

/-- text/template `html` (`HTMLEscapeString`), used at node_html.go:45-46. -/
def htmlEscape : Str → Str
  | [] => []
  | c :: s =>
    (if c = '"' then "&#34;".toList
     else if c = '\'' then "&#39;".toList
     else if c = '&' then "&amp;".toList
     else if c = '<' then "&lt;".toList
     else if c = '>' then "&gt;".toList
     else if c = Char.ofNat 0 then [Char.ofNat 0xFFFD]
     else [c]) ++ htmlEscape s

/-- graph.go:140-162 and node_html.go:13-19, the colour of a type. -/
def graphColor : ValType → Str
  | .float => "#24b581".toList
  | .int => "#007a55".toList
  | .string => "#cccccc".toList
  | .net => "#d8c732".toList
  | .bool => "#ffffff".toList
  | .regex => "#ca074c".toList
  | .time => "#f48544".toList

/-- node_html.go:43-48: one row of properties (escaped). -/
def propRow (name value : Str) : Str :=
  "\n<TR>\n\t<TD CELLPADDING=\"0\" BORDER=\"1\">".toList ++ htmlEscape name ++
  "</TD>\n\t<TD CELLPADDING=\"0\" BORDER=\"1\">".toList ++ htmlEscape value ++ "</TD>\n</TR>".toList

/-- node_html.go:53-58: one row of values (not escaped). -/
def valueRow (color type value : Str) : Str :=
  "\n<TR>\n\t<TD BORDER=\"1\" BGCOLOR=\"".toList ++ color ++ "\"><I>".toList ++ type ++
  "</I></TD>\n\t<TD BORDER=\"1\" BGCOLOR=\"#FFFFFF\">".toList ++ value ++ "</TD>\n</TR>".toList

/-- node_html.go:39-61, `labelTmpl`; a value is its colour, type and text. -/
def labelHtml (field : Str) (props : List (Str × Str)) (values : List (Str × Str × Str)) : Str :=
  ("<TABLE BORDER=\"0\" CELLBORDER=\"1\" CELLSPACING=\"0\" CELLPADDING=\"2\">\n<TR>\n\t".toList ++
    "<TD COLSPAN=\"2\" CELLPADDING=\"8\">".toList) ++ field ++ "</TD>\n</TR>".toList ++
  props.flatMap (fun p => propRow p.1 p.2) ++
  (if values = [] then []
   else "\n<TR>\n\t<TD COLSPAN=\"2\">Values</TD>\n</TR>".toList ++
     values.flatMap (fun v => valueRow v.1 v.2.1 v.2.2)) ++
  "\n</TABLE>\n".toList

variable (E : Env)

/-- graph.go:123-176, the label of a comparison. -/
def exprLabel (op : Op) (f : List Str) (vs : List Val) : Str :=
  labelHtml (joinDots f) [("op".toList, op.text)]
    (vs.map fun v => (graphColor v.type, graphType v.type, v.toStr E))

/-- graph.go:74, the label of the graph itself. -/
def graphTitle (query : Str) : Str := query

end Aql
