import Verif.Model.GrammarData
import Verif.Model.Ast
import Verif.Model.Visitors
import Mathlib.Data.List.Sort
/-!
internal/grammar/parser_gen.go: the parser run time (2251-3532) and the grammar's actions
(1884-2249), and parser/parser.go:16-81.

The parser is modelled as a function from an expression and a cursor to a result together with the
list of events it produced, in order: evaluated expressions (`ExprCnt`), recorded errors, and calls
of `failAt`. Fuel bounds the recursion depth; running out of it is a separate outcome, shown to be
impossible in `Props/Grammar`. No caller passes the options
`Memoize` and `MaxExpressions`; the run time with them is in Model/Options. Not modelled: debug output, statistics of choices, the `state` and `globalStore` maps (no
action uses them), the rule stack (only used in the prefix of `parserError.Error`, which
`GetParseError` does not use).
-/

namespace Aql

/-! ### Input -/

/-- What `utf8.DecodeRune` returns for the next bytes: a character, or U+FFFD with width 1 for a
byte that does not begin a valid encoding. -/
inductive Sym
  | ok (c : Char)
  | bad (b : UInt8)
  deriving DecidableEq, Repr

/-- The rune. -/
def Sym.rune : Sym → Char
  | .ok c => c
  | .bad _ => '�'

/-- Its width in bytes. -/
def Sym.width : Sym → Nat
  | .ok c => c.utf8Size
  | .bad _ => 1

/-- Continuation byte in the given range, as a number. -/
def inRange (lo hi : Nat) (b : UInt8) : Bool := lo ≤ b.toNat && b.toNat ≤ hi

/-- `utf8.DecodeRune` on a non-empty slice whose first byte is `b` (table `first` and
`acceptRanges` of unicode/utf8): the symbol and the remaining bytes. -/
def decodeRune (b : UInt8) (bs : List UInt8) : Sym × List UInt8 :=
  let x := b.toNat
  if x < 0x80 then (.ok (Char.ofNat x), bs)
  else if x < 0xC2 ∨ 0xF4 < x then (.bad b, bs)
  else if x < 0xE0 then
    match bs with
    | c :: rest =>
      if inRange 0x80 0xBF c then (.ok (Char.ofNat ((x - 0xC0) * 64 + (c.toNat - 0x80))), rest)
      else (.bad b, bs)
    | _ => (.bad b, bs)
  else if x < 0xF0 then
    match bs with
    | c :: d :: rest =>
      if inRange (if x = 0xE0 then 0xA0 else 0x80) (if x = 0xED then 0x9F else 0xBF) c ∧
          inRange 0x80 0xBF d then
        (.ok (Char.ofNat ((x - 0xE0) * 4096 + (c.toNat - 0x80) * 64 + (d.toNat - 0x80))), rest)
      else (.bad b, bs)
    | _ => (.bad b, bs)
  else
    match bs with
    | c :: d :: e :: rest =>
      if inRange (if x = 0xF0 then 0x90 else 0x80) (if x = 0xF4 then 0x8F else 0xBF) c ∧
          inRange 0x80 0xBF d ∧ inRange 0x80 0xBF e then
        (.ok (Char.ofNat ((x - 0xF0) * 262144 + (c.toNat - 0x80) * 4096 + (d.toNat - 0x80) * 64 +
          (e.toNat - 0x80))), rest)
      else (.bad b, bs)
    | _ => (.bad b, bs)

theorem decodeRune_length (b : UInt8) (bs : List UInt8) : (decodeRune b bs).2.length ≤ bs.length := by
  unfold decodeRune
  dsimp only
  repeat' split
  all_goals simp <;> omega

/-- The symbols of a text. The parser decodes as it reads; the result is the same. -/
def decode : List UInt8 → List Sym
  | [] => []
  | b :: bs => (decodeRune b bs).1 :: decode (decodeRune b bs).2
termination_by bs => bs.length
decreasing_by
  have := decodeRune_length b bs
  simp; omega

/-- parser_gen.go:2440-2442, `position`. -/
structure Loc where
  line : Nat
  col : Nat
  off : Nat
  deriving DecidableEq, Repr

/-- parser_gen.go:2450-2454, `savepoint` with the remaining input: `rest` begins with the current
rune (`rn`, `w`). -/
structure Cursor where
  rest : List Sym
  loc : Loc
  deriving DecidableEq

/-- What can go wrong while parsing (the texts are in `ErrKind.text`). -/
inductive ErrKind
  | encoding
  | untermString | untermRegex
  | badString | badRegex (text : Str) | badInt (text : Str) | badFloat (text : Str)
  | badBool (text : Str) | badNet (text : Str) | badTime (text : Str)
  | emptyField | singleParen | closingParen | unknownValue (text : Str)
  | panic (p : GoPanic)
  | noMatch (expected : List Str)
  deriving DecidableEq, Repr

/-- A recorded error: the kind and the token length of a `tokenError` (aql.peg:87-108). -/
structure RecErr where
  kind : ErrKind
  toklen : Option Nat
  deriving DecidableEq, Repr

/-- Observable steps of the parser. -/
inductive Ev
  /-- `p.ExprCnt++`, parser_gen.go:3102 -/
  | tick
  /-- `p.addErrAt(err, at, …)` -/
  | err (at_ : Loc) (e : RecErr)
  /-- `p.failAt(fail, at, want)` while `maxFailInvertExpected` is `inv` -/
  | mark (fail inv : Bool) (at_ : Loc) (want : Str)
  deriving DecidableEq, Repr

/-- Position after `col++` and, on a newline, `line++; col = 0` (parser_gen.go:2875-2879). -/
def Loc.step (line col off : Nat) : List Sym → Loc
  | .ok '\n' :: _ => ⟨line + 1, 0, off⟩
  | _ => ⟨line, col + 1, off⟩

/-- parser_gen.go:2881-2885: an undecodable byte under the cursor is an error. -/
def encErr (c : Cursor) : List Ev :=
  match c.rest with
  | .bad _ :: _ => [.err c.loc ⟨.encoding, none⟩]
  | _ => []

/-- parser_gen.go:2870-2886, `read`, when there is a current rune. -/
def Cursor.next (c : Cursor) : Cursor :=
  match c.rest with
  | [] => c
  | s :: t => ⟨t, Loc.step c.loc.line c.loc.col (c.loc.off + s.width) t⟩

/-- parser_gen.go:3019: the first `read` (from line 1, column 0, offset 0, width 0). -/
def Cursor.init (input : List Sym) : Cursor := ⟨input, Loc.step 1 0 0 input⟩

/-- The runes between two cursors on the same input (`sliceFrom`, parser_gen.go:2948-2951, as
text). -/
def textOf (c c' : Cursor) : Str := (c.rest.take (c.rest.length - c'.rest.length)).map Sym.rune

/-! ### Values and actions -/

/-- The dynamic values that flow through the parser: nil, matched bytes, Go strings, slices, and the
AST types. A typed nil `*ast.IntVal` (returned with an error) is a value `0`: the error that comes
with it makes the parse fail and nothing looks at it before. -/
inductive PV
  | nil
  | bytes (s : Str)
  | str (s : Str)
  | list (l : List PV)
  | op (o : Op)
  | fields (l : List Str)
  | val (v : Val)
  | vals (vs : List Val)
  | node (n : Node)

/-- A frame of labelled values (an entry of `vstack`). -/
abbrev VFrame := List (PLabel × PV)

/-- `stack[label]`: nil if the label is not set. -/
def VFrame.get (fr : VFrame) (l : PLabel) : PV := (fr.lookup l).getD .nil

/-- Type assertion `x.(ast.Node)`, aql.peg:197-211. -/
def PV.asNode : PV → GoM Node
  | .node n => .ok n
  | _ => .error .typeAssertion
/-- `x.(ast.Val)`, aql.peg:292-307. -/
def PV.asVal : PV → GoM Val
  | .val v => .ok v
  | _ => .error .typeAssertion
/-- `x.([]ast.Val)`, aql.peg:243. -/
def PV.asVals : PV → GoM (List Val)
  | .vals v => .ok v
  | _ => .error .typeAssertion
/-- `x.(ast.Op)`, aql.peg:220, 238. -/
def PV.asOp : PV → GoM Op
  | .op o => .ok o
  | _ => .error .typeAssertion
/-- `x.([]string)`, aql.peg:221, 242. -/
def PV.asFields : PV → GoM (List Str)
  | .fields f => .ok f
  | _ => .error .typeAssertion
/-- `x.(string)`, aql.peg:260, 264. -/
def PV.asString : PV → GoM Str
  | .str s => .ok s
  | _ => .error .typeAssertion
/-- `qv.(*ast.StringVal).Value()`, aql.peg:278. -/
def PV.asStringVal : PV → GoM Str
  | .val (.str s _) => .ok s
  | _ => .error .typeAssertion
/-- aql.peg:112-117, `toAny`. -/
def PV.toAny : PV → GoM (List PV)
  | .nil => .ok []
  | .list l => .ok l
  | _ => .error .typeAssertion

/-- `xs[i]`. -/
def PV.index (xs : List PV) (i : Nat) : GoM PV :=
  match xs[i]? with
  | some v => .ok v
  | none => .error .outOfRange

/-- `toAny(v)[i]` followed by a conversion, for every element of a slice (aql.peg:260-264 and
297-300). -/
def mapPieces {α : Type} (i : Nat) (conv : PV → GoM α) : List PV → GoM (List α)
  | [] => .ok []
  | v :: vs => do
    let l ← v.toAny
    let x ← PV.index l i
    let a ← conv x
    let as ← mapPieces i conv vs
    return a :: as

/-- aql.peg:167-174, `findStarIdx`. -/
def findStarIdx : List Str → Option Nat
  | [] => none
  | s :: ss => if s = ['*'] then some 0 else (findStarIdx ss).map (· + 1)

theorem findStarIdx_lt {ss : List Str} {i : Nat} (h : findStarIdx ss = some i) : i < ss.length := by
  induction ss generalizing i with
  | nil => cases h
  | cons s ss ih =>
    unfold findStarIdx at h
    split at h
    · cases h; simp
    · rcases h2 : findStarIdx ss with _ | j
      · rw [h2] at h; cases h
      · rw [h2] at h; cases h
        have := ih h2
        simp; omega

/-- aql.peg:156-165, `removeStars`: remove the first star until there is none. -/
def removeStars (ss : List Str) : List Str :=
  match _h : findStarIdx ss with
  | none => ss
  | some i => removeStars (ss.take i ++ ss.drop (i + 1))
termination_by ss.length
decreasing_by
  have := findStarIdx_lt _h
  simp; omega

/-- aql.peg:78-85, `getpos`. -/
def getpos (at_ : Loc) (text : Str) : Pos := ⟨at_.line, at_.col, at_.off, text.length⟩

/-- `bytes.Replace(text, "\\/", "/", -1)`, aql.peg:344. -/
def unescapeSlash : Str → Str
  | '\\' :: '/' :: s => '/' :: unescapeSlash s
  | c :: s => c :: unescapeSlash s
  | [] => []

/-- Value of a hexadecimal digit (strconv `unhex`). -/
def unhex (c : Char) : Option Nat :=
  if '0' ≤ c ∧ c ≤ '9' then some (c.toNat - '0'.toNat)
  else if 'a' ≤ c ∧ c ≤ 'f' then some (c.toNat - 'a'.toNat + 10)
  else if 'A' ≤ c ∧ c ≤ 'F' then some (c.toNat - 'A'.toNat + 10)
  else none

/-- strconv.Unquote after the opening double quote, for the escapes that the grammar lets through
(aql.peg QuotedValue); every other escape, and text after the closing quote or without one, is an
error. A `\u` escape of a surrogate is an error. -/
def unquoteBody : Str → Option Str
  | ['"'] => some []
  | '"' :: _ => none
  | '\\' :: '"' :: s => (unquoteBody s).map ('"' :: ·)
  | '\\' :: '\\' :: s => (unquoteBody s).map ('\\' :: ·)
  | '\\' :: 'b' :: s => (unquoteBody s).map ('\x08' :: ·)
  | '\\' :: 'f' :: s => (unquoteBody s).map ('\x0c' :: ·)
  | '\\' :: 'n' :: s => (unquoteBody s).map ('\n' :: ·)
  | '\\' :: 'r' :: s => (unquoteBody s).map ('\r' :: ·)
  | '\\' :: 't' :: s => (unquoteBody s).map ('\t' :: ·)
  | '\\' :: 'u' :: a :: b :: c :: d :: s =>
    match unhex a, unhex b, unhex c, unhex d with
    | some a, some b, some c, some d =>
      let v := ((a * 16 + b) * 16 + c) * 16 + d
      if v.isValidChar then (unquoteBody s).map (Char.ofNat v :: ·) else none
    | _, _, _, _ => none
  | '\\' :: _ => none
  | c :: s => if c = '\n' then none else (unquoteBody s).map (c :: ·)
  | [] => none

/-- strconv.Unquote on text that begins with a double quote. -/
def unquote : Str → Option Str
  | '"' :: s => unquoteBody s
  | _ => none

variable (E : Env)

/-- Value and error of an action. -/
abbrev ActRes := GoM (PV × Option RecErr)

/-- A constructor result wrapped as the actions do: `return nil, tokErr(pos, err)`. -/
def tokResult (r : Option Val) (kind : ErrKind) (len : Nat) : ActRes :=
  match r with
  | some v => .ok (.val v, none)
  | none => .ok (.nil, some ⟨kind, some len⟩)

/-- The action functions, aql.peg:183-466 (parser_gen.go:1884-2229): the frame of labels, the
matched text and its position. `onopNoArgs1` and `onopComp1` are only run on the listed texts. -/
def runAct (a : Act) (fr : VFrame) (text : Str) (at_ : Loc) : ActRes :=
  match a with
  | .onStart1 => .ok (fr.get .query, none)
  | .onQuery1 => .ok (fr.get .clause, none)
  | .onOrClause2 => do
    let l ← (fr.get .lhs).asNode
    let r ← (fr.get .rhs).asNode
    return (.node (.or l r), none)
  | .onAndClause2 => do
    let l ← (fr.get .lhs).asNode
    let r ← (fr.get .rhs).asNode
    return (.node (.and l r), none)
  | .onNotClause2 => do
    let e ← (fr.get .cmp).asNode
    return (.node (.not e), none)
  | .onComparison2 => .ok (fr.get .query, none)
  | .onComparison10 => do
    let o ← (fr.get .operation).asOp
    let f ← (fr.get .field).asFields
    return (.node (.expr o f [] (getpos at_ text)), none)
  | .onComparison19 => do
    let o ← (match fr.get .operation with
      | .nil => .ok Op.EQ
      | v => v.asOp)
    let f ← (fr.get .field).asFields
    let vs ← (fr.get .values).asVals
    return (.node (.expr o f vs (getpos at_ text)), none)
  | .onField1 => do
    let sl ← (fr.get .pieces).toAny
    if sl.length = 0 then return (.nil, some ⟨.emptyField, none⟩)
    let first ← (← PV.index sl 0).asString
    let rest ← (← PV.index sl 1).toAny
    let more ← mapPieces 1 PV.asString rest
    return (.fields (removeStars (first :: more)), none)
  | .onUnquotedFieldPiece1 => .ok (.str text, none)
  | .onQuotedFieldPiece1 => do
    let s ← (fr.get .qv).asStringVal
    return (.str s, none)
  | .onStar1 => .ok (.str ['*'], none)
  | .onValueList2 => do
    let first ← (fr.get .first).asVal
    let rest ← (fr.get .rest).toAny
    if rest.length = 0 then return (.nil, some ⟨.singleParen, none⟩)
    let more ← mapPieces 3 PV.asVal rest
    return (.vals (first :: more), none)
  | .onValueList17 => do
    let v ← (fr.get .value).asVal
    return (.vals [v], none)
  | .onValue2 => do
    let v ← (fr.get .val).asVal
    return (.val v, none)
  | .onValue8 =>
    match text with
    | [] => .error .outOfRange
    | c :: _ =>
      if c = ')' then .ok (.nil, some ⟨.closingParen, none⟩)
      else .ok (.nil, some ⟨.unknownValue text, none⟩)
  | .onQuotedValue2 =>
    tokResult ((unquote text).map (Val.str · (getpos at_ text))) .badString text.length
  | .onRegexValue2 =>
    tokResult (newRegexpVal E (unescapeSlash text) (getpos at_ text)) (.badRegex (unescapeSlash text))
      text.length
  | .onBoolValue1 =>
    match newBoolVal text (getpos at_ text) with
    | some v => .ok (.val v, none)
    | none => .ok (.val (.bool false (getpos at_ text)), some ⟨.badBool text, none⟩)
  | .onFloatValue1 => tokResult (newFloatVal E text (getpos at_ text)) (.badFloat text) text.length
  | .onIntValue1 =>
    match newIntVal text (getpos at_ text) with
    | some v => .ok (.val v, none)
    | none => .ok (.val (.int 0 text (getpos at_ text)), some ⟨.badInt text, none⟩)
  | .onIPValue1 => tokResult (newNetVal text (getpos at_ text)) (.badNet text) text.length
  | .onTimestamp1 => tokResult (newTimeVal text (getpos at_ text)) (.badTime text) text.length
  | .onopNoArgs1 =>
    .ok (.op (if text = ['e', 'x', 'i', 's', 't', 's'] then .EXS else .NUL), none)
  | .onopComp1 =>
    .ok (.op (if text = ['>', '<'] then .BET else if text = ['~'] then .SIM
      else if text = ['<'] then .LT else if text = ['<', '='] then .LTE
      else if text = ['>'] then .GT else .GTE), none)

/-- aql.peg:489-495: the error of a state code function. -/
def runState : StateCode → RecErr
  | .onErrUntermStr1 => ⟨.untermString, none⟩
  | .onErrUntermRegex1 => ⟨.untermRegex, none⟩

/-! ### The interpreter -/

/-- Result of evaluating an expression: `(value, true)` with the new cursor and frame, `(nil, false)`
with the cursor, or a panic with the cursor at that moment. -/
inductive Res
  | ok (v : PV) (c : Cursor) (fr : VFrame)
  | fail (c : Cursor)
  | panic (p : GoPanic) (c : Cursor)

/-- Outcome: out of fuel, or the events and the result. -/
inductive Out
  | oof
  | done (log : List Ev) (r : Res)

/-- Continue with the result, keeping the events. -/
def Out.andThen (o : Out) (k : Res → Out) : Out :=
  match o with
  | .oof => .oof
  | .done l r =>
    match k r with
    | .oof => .oof
    | .done l' r' => .done (l ++ l') r'

/-- Dynamic context: `maxFailInvertExpected` and the recovery stack (top first). -/
structure Ctx where
  inv : Bool
  recov : List (FailLabel × PExpr)

/-- Evaluation of sub-expressions. -/
abbrev Eval := Ctx → PExpr → VFrame → Cursor → Out

/-- parser_gen.go:3455-3474, the loop of `parseSeqExpr`. -/
def seqLoop (ev : Eval) (ctx : Ctx) (start : Cursor) :
    List PExpr → List PV → VFrame → Cursor → Out
  | [], acc, fr, c => .done [] (.ok (.list acc) c fr)
  | e :: es, acc, fr, c =>
    (ev ctx e fr c).andThen fun
      | .ok v c' fr' => seqLoop ev ctx start es (acc ++ [v]) fr' c'
      | .fail _ => .done [] (.fail start)
      | .panic p c' => .done [] (.panic p c')

/-- parser_gen.go:3309-3331, the loop of `parseChoiceExpr`: every alternative has its own frame. -/
def choiceLoop (ev : Eval) (ctx : Ctx) (fr : VFrame) : List PExpr → Cursor → Out
  | [], c => .done [] (.fail c)
  | e :: es, c =>
    (ev ctx e [] c).andThen fun
      | .ok v c' _ => .done [] (.ok v c' fr)
      | .fail c' => choiceLoop ev ctx fr es c'
      | .panic p c' => .done [] (.panic p c')

/-- parser_gen.go:3504-3520 and 3404-3424, the loops of `parseZeroOrMoreExpr` and
`parseOneOrMoreExpr` (`one`). The first argument bounds the number of iterations; reaching it counts
as running out of fuel. -/
def repLoop (ev : Eval) (ctx : Ctx) (fr : VFrame) (e : PExpr) (one : Bool) :
    Nat → List PV → Cursor → Out
  | 0, _, _ => .oof
  | k + 1, acc, c =>
    (ev ctx e [] c).andThen fun
      | .ok v c' _ => repLoop ev ctx fr e one k (acc ++ [v]) c'
      | .fail c' => .done [] (if one ∧ acc = [] then .fail c' else .ok (.list acc) c' fr)
      | .panic p c' => .done [] (.panic p c')

/-- parser_gen.go:3348-3368, the loop of `parseLitMatcher`: events of reading and the cursor after
the literal, `none` on a mismatch. At the end of the input the current rune is U+FFFD, which occurs
in no literal. -/
def litLoop (ic : Bool) : Str → Cursor → List Ev × Option Cursor
  | [], c => ([], some c)
  | w :: ws, c =>
    match c.rest with
    | [] => ([], none)
    | s :: _ =>
      if (if ic then goLower E s.rune else s.rune) = w then
        let r := litLoop ic ws c.next
        (encErr c.next ++ r.1, r.2)
      else ([], none)

/-- parser_gen.go:3228-3292: does a class match the rune? -/
def clsMatch (chars : List Char) (ranges : List (Char × Char)) (ic inv : Bool) (r : Char) : Bool :=
  let cur := if ic then goLower E r else r
  (chars.contains cur || ranges.any (fun p => p.1 ≤ cur && cur ≤ p.2)) != inv

/-- parser_gen.go:3488-3502, `parseThrowExpr`: the recovery expressions for the label, innermost
first. -/
def throwLoop (ev : Eval) (ctx : Ctx) (l : FailLabel) (fr : VFrame) :
    List (FailLabel × PExpr) → Cursor → Out
  | [], c => .done [] (.fail c)
  | (l', e) :: rs, c =>
    if l' = l then
      (ev ctx e fr c).andThen fun
        | .ok v c' fr' => .done [] (.ok v c' fr')
        | .fail c' => throwLoop ev ctx l fr rs c'
        | .panic p c' => .done [] (.panic p c')
    else throwLoop ev ctx l fr rs c

/-- parser_gen.go:3155-3178, what `parseActionExpr` does after its expression matched. -/
def actStep (a : Act) (start : Cursor) (c' : Cursor) (fr' : VFrame) : Out :=
  match runAct E a fr' (textOf start c') start.loc with
  | .error p => .done [] (.panic p c')
  | .ok (v, none) => .done [] (.ok v c' fr')
  | .ok (v, some e) => .done [.err start.loc e] (.ok v c' fr')

/-- One expression, given the evaluation of its sub-expressions and a bound for loops. -/
def step (k : Nat) (ev : Eval) (ctx : Ctx) (e : PExpr) (fr : VFrame) (c : Cursor) : Out :=
  match e with
  | .action a e =>
    (ev ctx e fr c).andThen fun
      | .ok _ c' fr' => actStep E a c c' fr'
      | r => .done [] r
  | .seq es => seqLoop ev ctx c es [] fr c
  | .choice es => choiceLoop ev ctx fr es c
  /- parser_gen.go:3333-3346 -/
  | .label l e =>
    (ev ctx e [] c).andThen fun
      | .ok v c' _ => .done [] (.ok v c' ((l, v) :: fr))
      | r => .done [] r
  /- parser_gen.go:3438-3453 and 3061-3088 -/
  | .rule r =>
    (ev ctx (grammar r) [] c).andThen fun
      | .ok v c' _ => .done [] (.ok v c' fr)
      | r => .done [] r
  | .lit val ic want =>
    match litLoop E ic val c with
    | (l, some c') => .done (l ++ [.mark true ctx.inv c.loc want]) (.ok (.bytes (textOf c c')) c' fr)
    | (l, none) => .done (l ++ [.mark false ctx.inv c.loc want]) (.fail c)
  | .cls chars ranges ic inv want =>
    match c.rest with
    | [] => .done [.mark false ctx.inv c.loc want] (.fail c)
    | s :: _ =>
      if clsMatch E chars ranges ic inv s.rune then
        .done (encErr c.next ++ [.mark true ctx.inv c.loc want])
          (.ok (.bytes (textOf c c.next)) c.next fr)
      else .done [.mark false ctx.inv c.loc want] (.fail c)
  /- parser_gen.go:3212-3226 -/
  | .any =>
    match c.rest with
    | [] => .done [.mark false ctx.inv c.loc ['.']] (.fail c)
    | _ :: _ =>
      .done (encErr c.next ++ [.mark true ctx.inv c.loc ['.']])
        (.ok (.bytes (textOf c c.next)) c.next fr)
  /- parser_gen.go:3386-3402 -/
  | .not e =>
    (ev { ctx with inv := !ctx.inv } e [] c).andThen fun
      | .ok _ _ _ => .done [] (.fail c)
      | .fail _ => .done [] (.ok .nil c fr)
      | .panic p c' => .done [] (.panic p c')
  | .star e => repLoop ev ctx fr e false k [] c
  | .plus e => repLoop ev ctx fr e true k [] c
  /- parser_gen.go:3522-3532 -/
  | .opt e =>
    (ev ctx e [] c).andThen fun
      | .ok v c' _ => .done [] (.ok v c' fr)
      | .fail c' => .done [] (.ok .nil c' fr)
      | .panic p c' => .done [] (.panic p c')
  /- parser_gen.go:3426-3436 -/
  | .recover l e r => ev { ctx with recov := (l, r) :: ctx.recov } e fr c
  | .throw l => throwLoop ev ctx l fr ctx.recov c
  /- parser_gen.go:3476-3486 -/
  | .state s => .done [.err c.loc (runState s)] (.ok .nil c fr)

/-- parser_gen.go:3090-3152, `parseExpr`. The fuel bounds the depth of the recursion, and the number
of iterations of each loop. -/
def run : Nat → Eval
  | 0, _, _, _, _ => .oof
  | f + 1, ctx, e, fr, c =>
    (Out.done [.tick] (.fail c)).andThen fun _ => step E f (run f) ctx e fr c

/-! ### The result of a parse -/

/-- parser_gen.go:2850-2867, `failAt`: furthest failure and what was expected there. -/
def failAt (s : Loc × List Str) : Ev → Loc × List Str
  | .mark fail inv at_ want =>
    if fail == inv then
      if at_.off < s.1.off then s
      else
        let s := if s.1.off < at_.off then (at_, []) else s
        (s.1, s.2 ++ [if inv then '!' :: want else want])
    else s
  | _ => s

/-- Furthest failure of a run (initially line 1, column 1, offset 0: parser_gen.go:2650). -/
def furthest (log : List Ev) : Loc × List Str := log.foldl failAt (⟨1, 1, 0⟩, [])

/-- The recorded errors, in order. -/
def errorsOf (log : List Ev) : List (Loc × RecErr) :=
  log.filterMap fun
    | .err l e => some (l, e)
    | _ => none

/-- Byte-wise order of ASCII texts (sort.Strings). -/
def strLe : Str → Str → Bool
  | [], _ => true
  | _ :: _, [] => false
  | a :: s, b :: t => if a = b then strLe s t else a.val < b.val

/-- parser_gen.go:3022-3041: the expected texts without duplicates, sorted (without duplicates, all
algorithms of sorting agree), `EOF` last. -/
def expectedOf (ws : List Str) : List Str :=
  let eof := ['!', '.']
  let rest := (ws.filter (· ≠ eof)).dedup
  rest.insertionSort (fun a b => strLe a b = true) ++ if eof ∈ ws then ["EOF".toList] else []

/-- Fuel for an input of `n` runes: enough, as proved in `Props/Grammar`. -/
def depthBound (n : Nat) : Nat := (n + 1) * 64

/-- Outcome of `parse`: the value, or the first error. -/
inductive ParseOut
  | value (v : PV)
  | error (at_ : Loc) (e : RecErr)

/-- parser_gen.go:2984-3048 and 2581-2599: `parse` and `errs.err()`, reduced to the first error
(`dedupe` keeps it first). -/
def finish (log : List Ev) (r : Res) : ParseOut :=
  match errorsOf log, r with
  | (l, e) :: _, _ => .error l e
  | [], .ok v _ _ => .value v
  | [], .fail _ => .error (furthest log).1 ⟨.noMatch (expectedOf (furthest log).2), none⟩
  | [], .panic p c => .error c.loc ⟨.panic p, none⟩

/-- The run of the start rule; the events begin with those of the first `read`. -/
def runStart (input : List Sym) : Out :=
  (Out.done (encErr (.init input)) (.fail (.init input))).andThen fun _ =>
    run E (depthBound input.length) ⟨false, []⟩ (grammar .Start) [] (.init input)

/-- parser_gen.go:2435-2437, `Parse`. `none` if the model runs out of fuel (it does not). -/
def parse (input : List Sym) : Option ParseOut :=
  match runStart E input with
  | .oof => none
  | .done log r => some (finish log r)

/-- `strings.Join` with a comma and a space. -/
def commaJoin : List Str → Str
  | [] => []
  | [s] => s
  | s :: ss => s ++ ", ".toList ++ commaJoin ss

/-- parser_gen.go:3050-3059, `listJoin(list, ", ", "or")`. -/
def listJoin : List Str → Str
  | [] => []
  | [s] => s
  | ss => commaJoin ss.dropLast ++ " or ".toList ++ ss.getLastD []

/-- Texts of errors: aql.peg:257, 295, 310-312, 323, 490, 494; ast.go:204, 239, 305, 344, 382-390, 443;
parser_gen.go:2261 and 3042. The texts of library errors inside them are those of the environment. A
panic is reported with the text of the panic, which is not modelled: `C64_no_recovered_panic` says that
there is none. -/
def ErrKind.text : ErrKind → Str
  | .encoding => "invalid encoding".toList
  | .untermString => "unterminated string, check for missing closing [\"] or unescaped [\\]".toList
  | .untermRegex => "unterminated regular expression, did you forget a closing '/'?".toList
  | .badString => "invalid string: invalid syntax".toList
  | .badRegex t => "invalid regular expression [".toList ++ t ++ "]: ".toList ++ E.reErr (trimSlash t)
  | .badInt t => "invalid integer value [".toList ++ t ++ "]".toList
  | .badFloat t => "invalid float value [".toList ++ t ++ "]".toList
  | .badBool t => "invalid boolean value [".toList ++ t ++ "]".toList
  | .badNet t =>
    let sv := if '/' ∈ t then t else t ++ "/32".toList
    "invalid network value [".toList ++ sv ++ "]: ".toList ++ E.netErr sv
  | .badTime t => "invalid datetime value [".toList ++ t ++ "]: ".toList ++ E.timeErr t
  | .emptyField => "empty field".toList
  | .singleParen => "unnecessary parenthesis for only one value".toList
  | .closingParen => "unexpected closing parenthesis, expecting values".toList
  | .unknownValue t =>
    "unknown type of value [".toList ++ t ++ "] -- did you mean ".toList ++ quote E t ++ "?".toList
  | .panic _ => "panic".toList
  | .noMatch ws => "no match found, expected: ".toList ++ listJoin ws

/-- aql.peg:36-60, `GetParseError`. -/
def getParseError (at_ : Loc) (e : RecErr) : PErr :=
  ⟨⟨at_.line, at_.col, at_.off, e.toklen.getD 1⟩, e.kind.text E⟩

/-- parser/parser.go:29-45: what the grammar stage of `ParseQueryReader` returns. -/
def grammarOut (input : List Sym) : Option (Except PErr Node) :=
  (parse E input).map fun
    | .error l e => .error (getParseError E l e)
    | .value (.node n) => .ok n
    | .value .nil => .error (genericParseError "parser returned nil output".toList)
    | .value _ => .error (genericParseError "parser returned unknown type".toList)

/-- parser/parser.go:16-81, `ParseQuery` with visitors. -/
def parseQuery {σ : Type} (vs : List (Visitor σ)) (s : VState σ) (query : List UInt8) :
    Option (GoM (VState σ × Except PErr Node)) :=
  (grammarOut E (decode query)).map (finishParse E vs s)

end Aql
