import Verif.Model.Visitors
import Verif.Model.Matcher
/-!
jsonmatcher/query_messages.go and `NewMatcher` after the grammar.
-/

namespace Aql

/-- query_messages.go:21. -/
def simStringText : Str :=
  "Similarity comparison is deprecated for string values. Please use the normal comparison operator - field:\"<string>\"".toList

/-- query_messages.go:25. -/
def simRegexText : Str :=
  "Similarity comparison is no longer necessary for regular expressions. Please use the normal comparison operator - field:/<regular expression/".toList

/-- query_messages.go:58. -/
def exactTimeText : Str :=
  "exact matches on full datetime values match the time EXACTLY, consider using [:] and a short date (YYYY-MM-DD) to match the day or a numeric comparison".toList

/-- query_messages.go:29. -/
def caseRegexText (sv : Str) : Str :=
  "Case-insensitive regular expression ".toList ++ sv ++
    " contains unicode characters. This may not work as intended. Consider a fuzzy match - 'field:~(\"value\", \"language\")".toList

/-- query_messages.go:33. -/
def dotStarText (sv : Str) : Str :=
  "regular expression ".toList ++ sv ++
    " does not need to begin or end with \".*\", as this is redundant.".toList

/-- query_messages.go:40. -/
def captureText (sub : Str) : Str :=
  "unnecessary outer capturing group \"()\", consider /".toList ++ sub ++ "/".toList

/-- query_messages.go:44. -/
def alternationText (field : Str) : Str :=
  "if you are doing large string alternations, consider using a multi-string match: such as '".toList
    ++ field ++ ":(\"one\", \"two\")'".toList

/-- query_messages.go:48. -/
def leadingText : Str :=
  "leading \".*\" may not do what you think, if you are searching for a term anywhere in a string, consider just \"/word/\"".toList

/-- query_messages.go:52. -/
def trailingText : Str := "trailing \".*\" is probably unnecessary".toList

/-- regexp/syntax: `Regexp.Op`. -/
def ReSyn.op : ReSyn → Nat
  | .mk o _ => o

/-- regexp/syntax: `Regexp.Sub`. -/
def ReSyn.subs : ReSyn → List ReSyn
  | .mk _ s => s

mutual
/-- query_messages.go:66-82, `doesSomethingSpecial`. -/
def doesSomethingSpecial : ReSyn → Bool
  | .mk op [_] => !(op == opLiteral || op == opStar || op == opQuest)
  | .mk _ subs => anySpecial subs
/-- query_messages.go:75-79, the loop over the sub-expressions. -/
def anySpecial : List ReSyn → Bool
  | [] => false
  | r :: rs => doesSomethingSpecial r || anySpecial rs
end

/-- query_messages.go:84-91, `isDotStar`. -/
def isDotStar : ReSyn → Bool
  | .mk op [s] => op == opStar && (s.op == opAnyChar || s.op == opAnyCharNotNL)
  | _ => false

/-- `strings.HasSuffix`. -/
def hasSuffix (s suf : Str) : Bool := suf.reverse.isPrefixOf s.reverse

/-- `strings.TrimPrefix`. -/
def trimPrefix (s pre : Str) : Str := if pre.isPrefixOf s then s.drop pre.length else s

/-- `strings.Join(n.Field, ".")`. -/
def joinDots : List Str → Str
  | [] => []
  | [p] => p
  | p :: ps => p ++ '.' :: joinDots ps

variable (E : Env)

/-- query_messages.go:39-55: hints from the parsed pattern. -/
def reHints (field : List Str) (src : Str) (pos : Pos) (reg : ReSyn) : List Msg :=
  let cap := reg.subs.length == 1 && reg.op == opCapture
  let reg' := if cap then (reg.subs.headD reg) else reg
  (if cap then [⟨.hint, pos, captureText (E.reSubText src)⟩] else []) ++
  (if reg'.op == opAlternate && !doesSomethingSpecial reg' then
    [⟨.hint, pos, alternationText (joinDots field)⟩] else []) ++
  (if 2 ≤ reg'.subs.length then
    (if (reg'.subs.head?).any isDotStar then [⟨.hint, pos, leadingText⟩] else []) ++
    (if 3 ≤ reg'.subs.length && (reg'.subs.getLast?).any isDotStar then
      [⟨.hint, pos, trailingText⟩] else [])
   else [])

/-- query_messages.go:17-61, the body of the loop for one value. -/
def valMessages (op : Op) (field : List Str) (v : Val) : List Msg × Option VErr :=
  match v with
  | .str _ pos => (if op = .SIM then [⟨.warning, pos, simStringText⟩] else [], none)
  | .regex sv src pos =>
    let m1 : List Msg := if op = .SIM then [⟨.warning, pos, simRegexText⟩] else []
    let re := trimSlash sv
    let m2 : List Msg := if "(?i)".toList.isPrefixOf re && !isASCII sv then
      [⟨.warning, pos, caseRegexText sv⟩] else []
    let re' := trimPrefix re "(?i)".toList
    let m3 : List Msg := if ".*".toList.isPrefixOf re' || hasSuffix re' ".*".toList then
      [⟨.hint, pos, dotStarText sv⟩] else []
    match E.reSyntax src with
    | none => (m1 ++ m2 ++ m3,
        some (.other "unexpected error parsing regular expression: ".toList))
    | some reg => (m1 ++ m2 ++ m3 ++ reHints E field src pos reg, none)
  | .time _ _ dayOnly pos =>
    (if op = .EQ ∧ dayOnly = false then [⟨.warning, pos, exactTimeText⟩] else [], none)
  | _ => ([], none)

/-- query_messages.go:17-61, the loop. -/
def exprMessages (op : Op) (field : List Str) : List Val → List Msg × Option VErr
  | [] => ([], none)
  | v :: vs =>
    match valMessages E op field v with
    | (ms, some e) => (ms, some e)
    | (ms, none) =>
      let r := exprMessages op field vs
      (ms ++ r.1, r.2)

/-- query_messages.go:12-64, `messageVisitor` (the text of the error value is abbreviated). -/
def messageVisitorFn : Node → List Msg × Option VErr
  | .expr op f vs _ => exprMessages E op f vs
  | _ => ([], none)

/-- jsonmatcher.go:20, the message visitor (tape 0). -/
def messageVisitor : Visitor Unit :=
  .message 0 fun u n => .ok (u, messageVisitorFn E n)

/-- jsonmatcher.go:19-32, `NewMatcher` after the grammar returned `out`: an error, or the matcher
and its messages. -/
def newMatcherFrom (query : Str) (out : Except PErr Node) :
    GoM (Except PErr (Matcher × List Msg)) :=
  match finishParse E [messageVisitor E] ⟨(), fun _ => Tape.new⟩ out with
  | .error p => .error p
  | .ok (_, .error e) => .ok (.error e)
  | .ok (s, .ok root) =>
    match build E root with
    | .error p => .error p
    | .ok b => .ok (.ok (⟨b, query, Counters.zero⟩, (s.tapes 0).messages))

end Aql
