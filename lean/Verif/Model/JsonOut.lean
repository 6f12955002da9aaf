import Verif.Model.Matcher
import Verif.Model.Graph
/-!
encoding/json `MarshalIndent(v, "", "  ")` for the two values the repository prints with it: the query
tree (wasm/aqlparse/main.go:20) and the statistics (cmd/aqltest/main.go:57); and `Marshal`, used for the
statistics about field values (jsonmatcher/field_stats.go:96).
-/

namespace Aql

/-- The JSON values that occur. Object members are in the order of the struct fields. -/
inductive JOut
  | null
  | num (i : Int)
  | str (s : Str)
  | arr (items : List JOut)
  | obj (members : List (Str × JOut))

/-- encoding/json `appendString` with `escapeHTML` set, one character. Since Go 1.22 backspace and form
feed have the short forms (`short`), before they were written as `\u0008` and `\u000c`. -/
def jsonChar (short : Bool) (c : Char) : Str :=
  if c = '"' then ['\\', '"']
  else if c = '\\' then ['\\', '\\']
  else if c = '\n' then ['\\', 'n']
  else if c = '\r' then ['\\', 'r']
  else if c = '\t' then ['\\', 't']
  else if short && c.toNat == 8 then ['\\', 'b']
  else if short && c.toNat == 12 then ['\\', 'f']
  else if c.toNat < 32 || c = '<' || c = '>' || c = '&' || c.toNat == 0x2028 || c.toNat == 0x2029 then
    '\\' :: 'u' :: hexDigits 4 c.toNat
  else [c]

/-- A string as written. -/
def jsonString (short : Bool) (s : Str) : Str := '"' :: (s.flatMap (jsonChar short) ++ ['"'])

/-- strconv.FormatInt in base ten. -/
def jsonInt (i : Int) : Str := if i < 0 then '-' :: itoa i.natAbs else itoa i.natAbs

/-- A new line at depth `d` (encoding/json `appendNewline` with indent of two blanks). -/
def newline (d : Nat) : Str := '\n' :: List.replicate (2 * d) ' '

/-- The parts of an array or object, each on its own line. -/
def jsonLines (d : Nat) : List Str → Str
  | [] => []
  | [x] => newline d ++ x
  | x :: xs => newline d ++ x ++ ',' :: jsonLines d xs

mutual
/-- A value as written by MarshalIndent at depth `d`. -/
def JOut.text (short : Bool) (d : Nat) : JOut → Str
  | .null => "null".toList
  | .num i => jsonInt i
  | .str s => jsonString short s
  | .arr [] => "[]".toList
  | .arr (v :: vs) => '[' :: (jsonLines (d + 1) (JOut.texts short (d + 1) (v :: vs)) ++ newline d ++ [']'])
  | .obj [] => "{}".toList
  | .obj (m :: ms) => '{' :: (jsonLines (d + 1) (JOut.memberTexts short (d + 1) (m :: ms)) ++ newline d ++ ['}'])
/-- The items of an array. -/
def JOut.texts (short : Bool) (d : Nat) : List JOut → List Str
  | [] => []
  | v :: vs => v.text short d :: JOut.texts short d vs
/-- A member of an object. -/
def JOut.memberText (short : Bool) (d : Nat) : Str × JOut → Str
  | (k, v) => jsonString short k ++ ": ".toList ++ v.text short d
/-- The members of an object. -/
def JOut.memberTexts (short : Bool) (d : Nat) : List (Str × JOut) → List Str
  | [] => []
  | m :: ms => JOut.memberText short d m :: JOut.memberTexts short d ms
end

/-- Texts separated by commas. -/
def jsonCommas : List Str → Str
  | [] => []
  | [x] => x
  | x :: xs => x ++ ',' :: jsonCommas xs

mutual
/-- A value as written by Marshal. -/
def JOut.flat (short : Bool) : JOut → Str
  | .null => "null".toList
  | .num i => jsonInt i
  | .str s => jsonString short s
  | .arr vs => '[' :: (jsonCommas (JOut.flats short vs) ++ [']'])
  | .obj ms => '{' :: (jsonCommas (JOut.memberFlats short ms) ++ ['}'])
/-- The items of an array. -/
def JOut.flats (short : Bool) : List JOut → List Str
  | [] => []
  | v :: vs => v.flat short :: JOut.flats short vs
/-- The members of an object. -/
def JOut.memberFlats (short : Bool) : List (Str × JOut) → List Str
  | [] => []
  | (k, v) :: ms => (jsonString short k ++ ':' :: v.flat short) :: JOut.memberFlats short ms
end

/-- ast.go:135-145, `Pos` with its tags. -/
def Pos.json (p : Pos) : JOut :=
  .obj [("line".toList, .num p.line), ("column".toList, .num p.col),
    ("offset".toList, .num p.offset), ("length".toList, .num p.len)]

/-- A slice of strings (fields come from `getTokens`/`Field` and are never nil). -/
def jsonField (f : List Str) : JOut := .arr (f.map .str)

/-- The slice `RVals`. All fields of the value types are unexported (ast.go:194-198, 230-234, 265-269,
296-300, 335-339, 370-374, 417-422), so every value is written as `{}`. It is nil exactly for the
operators without arguments (aql.peg:218-224). -/
def jsonVals : List Val → JOut
  | [] => .null
  | vs => .arr (vs.map fun _ => .obj [])

/-- ast.go:34-83: the exported fields of the node types in their order. -/
def Node.json : Node → JOut
  | .and l r => .obj [("Left".toList, l.json), ("Right".toList, r.json)]
  | .or l r => .obj [("Left".toList, l.json), ("Right".toList, r.json)]
  | .not e => .obj [("Expr".toList, e.json)]
  | .subdoc f e => .obj [("Field".toList, jsonField f), ("Expr".toList, e.json)]
  | .expr op f vs p => .obj [("Op".toList, .str op.text), ("Field".toList, jsonField f),
      ("RVals".toList, jsonVals vs), ("Position".toList, p.json)]

mutual
/-- node_stats.go:5-10, `MatchStats` with its tags (`children` is left out if empty). -/
def MatchStats.json : MatchStats → JOut
  | .mk n c m [] => .obj [("node_name".toList, .str n), ("times_checked".toList, .num c),
      ("times_matched".toList, .num m)]
  | .mk n c m (k :: ks) => .obj [("node_name".toList, .str n), ("times_checked".toList, .num c),
      ("times_matched".toList, .num m), ("children".toList, .arr (k.json :: jsonKids ks))]
/-- The children after the first. -/
def jsonKids : List MatchStats → List JOut
  | [] => []
  | k :: ks => k.json :: jsonKids ks
end

/-- wasm/aqlparse/main.go:20, the text of the tree. -/
def treeText (short : Bool) (root : Node) : Str := root.json.text short 0

/-- cmd/aqltest/main.go:57, the text of the statistics. -/
def statsText (short : Bool) (s : MatchStats) : Str := s.json.text short 0

end Aql
