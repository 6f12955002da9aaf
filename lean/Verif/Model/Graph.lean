import Verif.Model.Messages
/-!
aqlgraph/graph.go: the graph of a query. Graphviz itself is modelled by its documented behaviour:
creating a node with the name of an existing node gives that node back, creating an edge with an
existing name between the same nodes gives that edge back.
-/

namespace Aql

/-- strconv.Itoa on a non-negative number. -/
def itoa (n : Nat) : Str := Nat.toDigits 10 n

/-- graph.go:96-176 and node_html.go:22-37: what a node shows. The HTML table of a comparison is
represented by the data it is made from. -/
inductive Label
  | point
  | text (s : Str)
  | table (field : Str) (op : Str) (values : List (Str × Str))
  | blank
  deriving DecidableEq

/-- How a node is drawn: its label, its shape and its colour (empty if not set). Style and font are the same for all
nodes (graph.go:98-100) and left out. -/
structure Face where
  label : Label
  shape : Str
  fill : Str
  deriving DecidableEq

/-- A node of the graph: its name and how it is drawn (cgraph `Node`, graph.go:33-39, 97-176). -/
structure GNode where
  name : Str
  face : Face
  deriving DecidableEq

/-- An edge of the graph: its name, its ends and whether its pen width was set to 3 (cgraph `Edge`, graph.go:41-47,
89, 182). -/
structure GEdge where
  name : Str
  tail : Str
  head : Str
  heavy : Bool
  deriving DecidableEq

/-- graph.go:28-31 and 49-51: the graph and the counter of the namer. -/
structure GState where
  next : Nat
  nodes : List GNode
  edges : List GEdge

/-- Graphviz `CreateNode` followed by `SetLabel`, `SetShape` and `SetFillColor`. -/
def GState.createNode (g : GState) (name : Str) (l : Face) : GState :=
  if g.nodes.any (fun n => n.name == name) then
    { g with nodes := g.nodes.map (fun n => if n.name = name then { n with face := l } else n) }
  else { g with nodes := g.nodes ++ [⟨name, l⟩] }

/-- Graphviz `CreateEdge`, followed by `SetPenWidth(3)` if `heavy`. -/
def GState.createEdge (g : GState) (name tail head : Str) (heavy : Bool) : GState :=
  if g.edges.any (fun e => e.name == name && e.tail == tail && e.head == head) then
    { g with edges := g.edges.map (fun e =>
        if e.name = name ∧ e.tail = tail ∧ e.head = head then { e with heavy := e.heavy || heavy } else e) }
  else { g with edges := g.edges ++ [⟨name, tail, head, heavy⟩] }

/-- graph.go:53-57, `namer.next`. -/
def GState.nextName (g : GState) : Str × GState := (itoa g.next, { g with next := g.next + 1 })

/-- graph.go:33-39, `NewNode`. -/
def GState.newNode (g : GState) (l : Face) : Str × GState :=
  let (nm, g) := g.nextName
  (nm, g.createNode nm l)

/-- graph.go:41-47, `NewEdge`, followed by `SetPenWidth(3)` if `heavy`. -/
def GState.newEdge (g : GState) (tail head : Str) (heavy : Bool) : GState :=
  let (nm, g) := g.nextName
  g.createEdge nm tail head heavy

/-- graph.go:140-162, the type column. -/
def graphType : ValType → Str
  | .float => "float".toList
  | .int => "integer".toList
  | .string => "string".toList
  | .net => "network".toList
  | .bool => "boolean".toList
  | .regex => "regexp".toList
  | .time => "datetime".toList

variable (E : Env)

/-- graph.go:105-176: the label of a node. -/
def nodeLabel : Node → Label
  | .not _ => .text "NOT".toList
  | .and _ _ => .text "AND".toList
  | .or _ _ => .text "OR".toList
  | .expr op f vs _ => .table (joinDots f) op.text (vs.map fun v => (graphType v.type, v.toStr E))
  | .subdoc _ _ => .blank

/-- graph.go:105-125 and node_html.go:6-10: how a node is drawn; `cgraph.BoxShape` is `box`, `cgraph.PlainShape` is
`plain`. -/
def nodeFace (n : Node) : Face :=
  match n with
  | .not _ => ⟨nodeLabel E n, "box".toList, "#ba4932".toList⟩
  | .and _ _ => ⟨nodeLabel E n, "box".toList, "#f59722".toList⟩
  | .or _ _ => ⟨nodeLabel E n, "box".toList, "#f4e452".toList⟩
  | .expr .. => ⟨nodeLabel E n, "plain".toList, "#427baa".toList⟩
  | .subdoc .. => ⟨nodeLabel E n, [], []⟩

/-- graph.go:96-189, `visitNodes`: the name of the node made for the AST node, and the new state. -/
def visitNodes (g : GState) : Node → Str × GState
  | .not e =>
    let (n, g) := g.newNode (nodeFace E (.not e))
    let (l, g) := visitNodes g e
    (n, g.newEdge n l true)
  | .and a b =>
    let (n, g) := g.newNode (nodeFace E (.and a b))
    let (l, g) := visitNodes g a
    let g := g.newEdge n l true
    let (r, g) := visitNodes g b
    (n, g.newEdge n r false)
  | .or a b =>
    let (n, g) := g.newNode (nodeFace E (.or a b))
    let (l, g) := visitNodes g a
    let g := g.newEdge n l true
    let (r, g) := visitNodes g b
    (n, g.newEdge n r false)
  | .subdoc f e => g.newNode (nodeFace E (.subdoc f e))
  | .expr op f vs p => g.newNode (nodeFace E (.expr op f vs p))

/-- graph.go:59-94, `QueryGraph` after parsing. -/
def queryGraph (root : Node) : GState :=
  let g : GState := ⟨0, [], []⟩
  let g := g.createNode "start".toList ⟨.point, "point".toList, []⟩
  let (r, g) := visitNodes E g root
  g.newEdge "start".toList r true

end Aql
