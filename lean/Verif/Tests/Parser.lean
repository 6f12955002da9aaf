import Verif.Model.Peg
/-!
The tables of parser/parser_test.go, run on the model, with the texts of library errors that they
name.
-/

namespace Aql.Tests

/-- `testEnv` with the library errors of the tables. -/
def env : Env :=
  { testEnv with
    reOk := fun s => s != "*".toList
    reErr := fun _ => "error parsing regexp: missing argument to repetition operator: `*`".toList
    netErr := fun s =>
      if s = "192.168.0.0/99".toList then "prefix length out of range".toList
      else "IPv4 field has value >255".toList
    timeErr := fun s =>
      if s = "1979-13-03".toList then "month out of range".toList
      else if s = "1979-02-31".toList then "day out of range".toList
      else "minute out of range".toList }

def result (q : String) : Option (Except PErr Node) :=
  match parseQuery env (σ := Unit) [] ⟨(), fun _ => Tape.new⟩ q.toUTF8.toList with
  | some (.ok (_, r)) => some r
  | _ => none

def parsesTo (q want : String) : Bool :=
  match result q with
  | some (.ok n) => n.toStr env == want.toList
  | _ => false

def accepts (q : String) : Bool :=
  match result q with
  | some (.ok _) => true
  | _ => false

def failsAt (q : String) (line col off : Int) (msg : String) : Bool :=
  match result q with
  | some (.error e) =>
    e.pos.line == line && e.pos.col == col && e.pos.offset == off &&
      e.msg == msg.toList
  | _ => false

#guard parsesTo "name:\"siegfried\"" "(== name \"siegfried\")"
#guard parsesTo "\"name\":\"siegfried\"" "(== name \"siegfried\")"
#guard parsesTo "_name:\"siegfried\"" "(== _name \"siegfried\")"
#guard parsesTo "\"_name\":\"siegfried\"" "(== _name \"siegfried\")"
#guard parsesTo "0:\"siegfried\"" "(== 0 \"siegfried\")"
#guard parsesTo "name.givenname:\"siegfried\"" "(== name.givenname \"siegfried\")"
#guard parsesTo "name.\"GivenName\":\"siegfried\"" "(== name.GivenName \"siegfried\")"
#guard parsesTo "\"na.me\".\"Given\\\"Name\":\"siegfried\"" "(== \"na.me\".\"Given\\\"Name\" \"siegfried\")"
#guard parsesTo "name:\"Hans\" AND surname:\"Wurst\"" "(&& (== name \"Hans\") (== surname \"Wurst\"))"
#guard parsesTo "(name:\"Hans\" AND surname:\"Wurst\")" "(&& (== name \"Hans\") (== surname \"Wurst\"))"
#guard parsesTo "name:\"Hans\" OR name:\"Siegfried\"" "(|| (== name \"Hans\") (== name \"Siegfried\"))"
#guard parsesTo "(name:\"Hans\" OR name:\"Siegfried\")" "(|| (== name \"Hans\") (== name \"Siegfried\"))"
#guard parsesTo "name:\"Hans\" OR (name:\"Siegfried\")" "(|| (== name \"Hans\") (== name \"Siegfried\"))"
#guard parsesTo "name:\"Hans\"\n\tAND surname:\"Wurst\"" "(&& (== name \"Hans\") (== surname \"Wurst\"))"
#guard parsesTo "name:\"Hans\"\n\tOR surname:\"Wurst\"" "(|| (== name \"Hans\") (== surname \"Wurst\"))"
#guard parsesTo "name:\"Hans\" OR name:\"Siegfried\" AND age:9001" "(|| (== name \"Hans\") (&& (== name \"Siegfried\") (== age 9001)))"
#guard parsesTo "(name:\"Hans\" OR name:\"Siegfried\") AND age:9001" "(&& (|| (== name \"Hans\") (== name \"Siegfried\")) (== age 9001))"
#guard parsesTo "name:\"Hans\" AND age:9001 OR name:\"Siegfried\"" "(|| (&& (== name \"Hans\") (== age 9001)) (== name \"Siegfried\"))"
#guard parsesTo "name:(\"Hans\",\"Siegfried\") AND age:9001" "(&& (== name [\"Hans\", \"Siegfried\"]) (== age 9001))"
#guard parsesTo "!name:\"Hans\" AND surname:\"Wurst\"" "(&& (! (== name \"Hans\")) (== surname \"Wurst\"))"
#guard parsesTo "NOT name:\"Hans\" AND surname:\"Wurst\"" "(&& (! (== name \"Hans\")) (== surname \"Wurst\"))"
#guard parsesTo "!(name:\"Hans\" AND surname:\"Wurst\")" "(! (&& (== name \"Hans\") (== surname \"Wurst\")))"
#guard parsesTo "floppy:1.4" "(== floppy 1.4)"
#guard parsesTo "floppy:-1.4" "(== floppy -1.4)"
#guard parsesTo "memory:32" "(== memory 32)"
#guard parsesTo "memory:-32" "(== memory -32)"
#guard parsesTo "isAdmin:true" "(== isAdmin true)"
#guard parsesTo "writesGoodParsers:false" "(== writesGoodParsers false)"
#guard parsesTo "internal:192.168.1.0/24" "(== internal 192.168.1.0/24)"
#guard parsesTo "Andy:1979-10-03" "(== Andy 1979-10-03)"
#guard parsesTo "AndyPrecise:2021-06-08T20:56:33+00:00" "(== AndyPrecise 2021-06-08T20:56:33+00:00)"
#guard parsesTo "domains:/.*\\\\.[a-z0-9]*\\\\.local/" "(== domains /.*\\\\.[a-z0-9]*\\\\.local/)"
#guard parsesTo "answer:42" "(== answer 42)"
#guard parsesTo "whiskers:><(0,1)" "(>< whiskers [0, 1])"
#guard parsesTo "over9000:>9000" "(> over9000 9000)"
#guard parsesTo "almost:>=9000" "(>= almost 9000)"
#guard parsesTo "alone:<2" "(< alone 2)"
#guard parsesTo "pair:<=2" "(<= pair 2)"
#guard parsesTo "pair:exists" "(exists pair)"
#guard parsesTo "pair:null" "(null pair)"
#guard parsesTo " name:\"Peter\"" "(== name \"Peter\")"
#guard parsesTo "name:\"Peter\" " "(== name \"Peter\")"
#guard parsesTo "name: ~ ( \"Peter\" , \"Bob\" )" "(~ name [\"Peter\", \"Bob\"])"
#guard parsesTo "na-me: \"Peter\"" "(== na-me \"Peter\")"
#guard parsesTo "( name: \"Peter\" )" "(== name \"Peter\")"
#guard parsesTo "a:<1 AND b:exists AND c:<=2 AND d:null AND e:\"hello\"" "(&& (< a 1) (&& (exists b) (&& (<= c 2) (&& (null d) (== e \"hello\")))))"
#guard failsAt "name:\"foo" 1 10 9 "unterminated string, check for missing closing [\"] or unescaped [\\]"
#guard failsAt "name:/*/" 1 6 5 "invalid regular expression [/*/]: error parsing regexp: missing argument to repetition operator: `*`"
#guard accepts "name:/.*/"
#guard failsAt "net:500.500.500.500/32" 1 5 4 "invalid network value [500.500.500.500/32]: IPv4 field has value >255"
#guard failsAt "net:192.168.0.0/99" 1 5 4 "invalid network value [192.168.0.0/99]: prefix length out of range"
#guard accepts "net:192.168.0.0/24"
#guard failsAt "Andy:1979-13-03" 1 6 5 "invalid datetime value [1979-13-03]: month out of range"
#guard failsAt "Joe:1979-02-31" 1 5 4 "invalid datetime value [1979-02-31]: day out of range"
#guard accepts "Andy:1979-10-03"
#guard failsAt "AndyPrecise:2021-06-08T20:74:33+00:00" 1 13 12 "invalid datetime value [2021-06-08T20:74:33+00:00]: minute out of range"
#guard accepts "AndyPrecise:2021-06-08T20:53:33+00:00"
#guard failsAt "name:(/.*/,/*/)" 1 12 11 "invalid regular expression [/*/]: error parsing regexp: missing argument to repetition operator: `*`"
#guard failsAt "foo:(\"bar\")" 1 5 4 "unnecessary parenthesis for only one value"
#guard failsAt "name:()" 1 7 6 "unexpected closing parenthesis, expecting values"
#guard failsAt "value: (1,2,1)" 1 13 12 "duplicate argument [1] (value 3/3)"
#guard failsAt "value:>< 1" 1 1 0 "[><] operation requires exactly 2 arguments"
#guard failsAt "value:>< (1,2,3)" 1 1 0 "[><] operation requires exactly 2 arguments"
#guard failsAt "value:>< (1, \"hello\")" 1 14 13 "[><] operation needs numeric arguments"
#guard failsAt "value:>< (2, 1)" 1 14 13 "[><] operation requires the second argument be greater"

end Aql.Tests
