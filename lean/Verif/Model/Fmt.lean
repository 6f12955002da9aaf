import Verif.Model.Visitors
/-!
parser/fmtmsg: message formatting. A Go `[]rune` made from a string may have spare capacity filled
with zeros, and slicing is checked against the capacity; `spare` is that number of zeros.
-/

namespace Aql

/-- `string(q[i:j])` on a rune slice with `spare` zero elements beyond its length. -/
def goSlice (q : Str) (spare : Nat) (i j : Int) : GoM Str :=
  if 0 ≤ i ∧ i ≤ j ∧ j ≤ (q.length + spare : Nat) then
    .ok (((q ++ List.replicate spare (Char.ofNat 0)).drop i.toNat).take (j - i).toNat)
  else .error .outOfRange

/-- `strings.Repeat(s, n)` of a one-character string; functions.go:5-7 `pad`. -/
def goRepeat (c : Char) (n : Int) : GoM Str :=
  if 0 ≤ n then .ok (List.replicate n.toNat c) else .error .negativeRepeat

/-- truncate.go:16-79, `findCenterSubstring` (`n` is `len(r)`; the result is (left, right)). -/
def findCenter (n w st en : Int) : Int × Int :=
  let sub := en - st + 1
  if w ≥ n then (0, n)
  else if sub ≥ w then (st, st + w)
  else
    let leftSpace := st
    let rightSpace := n - en - 1
    let maxSub := min w (sub + min leftSpace rightSpace)
    let center := (st + en).tdiv 2
    let half := maxSub.tdiv 2
    let l0 := center - half
    let r0 := l0 + maxSub - 1
    let (l1, r1) := if l0 < 0 then (0, r0 - l0) else (l0, r0)
    let (l2, r2) := if r1 ≥ n then (l1 - (r1 - n + 1), n - 1) else (l1, r1)
    let (l3, r3) :=
      if r2 - l2 + 1 < w then
        let l := center - (w - 1).tdiv 2
        let r := l + w
        let (l, r) := if l < 0 then (0, min w n) else (l, r)
        if r ≥ n then (max (n - w) 0, n) else (l, r)
      else (l2, r2)
    if r3 - l3 + 1 > w then (l3, l3 + w) else (l3, r3)

/-- formatter.go:113-130, `printData` (`kind` is the upper-cased type, see `kindText`). -/
structure PrintData where
  kind : Str
  query : Str
  spare : Nat
  message : Str
  hasHL : Bool
  pos : Pos
  lo : Int
  ro : Int

/-- formatter.go:98-109 and 122-127 with `toupper`: the type of a message as printed; `none` is a
`ParseError`. -/
def kindText : Option MsgType → Str
  | none => "ERROR".toList
  | some .error => "ERROR".toList
  | some .warning => "WARNING".toList
  | some .hint => "INFO".toList

/-- formatter.go:87-114 with truncate.go:7-14, `getPrintData` and `truncate`. -/
def printData (query : Str) (spare : Nat) (maxw : Int) (kind : Option MsgType) (pos : Pos)
    (msg : Str) : PrintData :=
  let n : Int := query.length
  let win := if maxw ≤ 0 ∨ pos = noPosition ∨ n ≤ maxw then (0, n)
    else findCenter n maxw pos.offset (pos.offset + pos.len)
  ⟨kindText kind, query, spare, msg, pos ≠ noPosition, pos, win.1, win.2⟩

namespace PrintData

variable (m : PrintData)

/-- formatter.go:143-149, `HLStrOffset`. -/
def hlOffset : Int := m.pos.offset - m.lo + (if m.lo > 0 then 3 else 0)

/-- The marks of a cut, formatter.go:156-162, 171-173, 191-193. -/
def dots (b : Prop) [Decidable b] : Str := if b then "...".toList else []

/-- formatter.go:151-164, `Query`. -/
def queryText : GoM Str :=
  if m.lo = 0 ∧ m.ro = m.query.length then .ok m.query
  else
    match goSlice m.query m.spare m.lo m.ro with
    | .error p => .error p
    | .ok s => .ok (dots (m.lo > 0) ++ s ++ dots (m.ro < m.query.length))

/-- formatter.go:166-176, `QueryPre`. -/
def queryPre : GoM Str :=
  if m.hasHL = false then m.queryText
  else
    match goSlice m.query m.spare m.lo m.pos.offset with
    | .error p => .error p
    | .ok s => .ok (dots (m.lo > 0) ++ s)

/-- formatter.go:178-183, `QueryHL`. -/
def queryHL : GoM Str :=
  if m.hasHL = false then .ok []
  else goSlice m.query m.spare m.pos.offset (m.pos.offset + m.pos.len)

/-- formatter.go:185-195, `QueryPost`. -/
def queryPost : GoM Str :=
  if m.hasHL = false then .ok []
  else
    match goSlice m.query m.spare (m.pos.offset + m.pos.len) m.ro with
    | .error p => .error p
    | .ok s => .ok (s ++ dots (m.ro < m.query.length))

/-- formatter.go:197-203 and 72-77: what the terminal template writes, and the panic of a method or
function that ends it early (text/template turns it into an error, after which Fprint writes
`**PRINT ERROR: ` and a text not modelled here). -/
def terminal : Str × Option GoPanic :=
  let head := m.kind ++ ": ".toList ++ m.message
  if m.hasHL = false then (head, none)
  else
    let o1 := head ++ "\n    ".toList
    match m.queryText with
    | .error p => (o1, some p)
    | .ok q =>
      let o2 := o1 ++ q ++ "\n    ".toList
      match goRepeat ' ' m.hlOffset with
      | .error p => (o2, some p)
      | .ok s =>
        match goRepeat '^' m.pos.len with
        | .error p => (o2 ++ s, some p)
        | .ok t => (o2 ++ s ++ t ++ "\n".toList, none)

end PrintData

end Aql
