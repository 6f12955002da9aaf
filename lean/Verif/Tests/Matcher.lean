import Verif.Model.Api
/-!
Generated by tools/gen_matcher_tests.py from jsonmatcher/testdata: the queries of jsonmatcher_test.go
and their expected answers, run on the model. The tables of regular expression matches and parsed dates
cover the strings of the document.
-/

namespace Aql.Tests

/-- Which strings of the document the patterns of the tests match. -/
def reTable : List (String × List String) := [
  ("^And", ["Andy"]),
  ("dy$", ["Andy"]),
  ("nd", ["Andy", "indifferent"]),
  ("(?i)^andy", ["Andy"]),
  ("^andy", []),
  ("\\p{Han}{3}", ["大懒虫", "辣椒油 (food)"]),
  ("^\\d+/\\d+/\\d+", ["1/2/70"]),
  (".", ["0", "1", "1*1", "1.1", "1/2/70", "192.168.1.0", "192.168.1.0/33", "192.168.500.0", "1970-01-02", "1970-01-02T15:53:33+00:00", "Ada Lovelace", "Alan Kay", "Andy", "As soon as I have got flying to perfection, I have got a scheme about a steam engine.", "Edsger Dijkstra", "If debugging is the process of removing software bugs, then programming must be the process of putting them in", "January 1st, 1970", "Kirby (cat)", "NaN", "Pig (dog)", "Pizza (food)", "Rolf (dog)", "The most disastrous thing that you can ever learn is your first programming language", "attempted access from 192.168.1.1", "false", "frogger", "hello", "hopeful", "indifferent", "pacman", "pinbot", "received bad netblock 10.10.1.0/24 from blocklist", "true", "uncoordinated", "大懒虫", "辣椒油 (food)"])]

/-- `testEnv` with these tables. -/
def matcherEnv : Env :=
  { testEnv with
    reMatch := fun src t => reTable.any fun e => e.1.toList == src && e.2.any (·.toList == t)
    dateparse := fun t =>
      if t = "1/2/70".toList then parseDay "1970-01-02".toList
      else if t = "January 1st, 1970".toList then parseDay "1970-01-01".toList
      else testEnv.dateparse t }

/-- testdata.json. -/
def testDoc : Json :=
  .obj [("date".toList, .obj [("fullDate".toList, .str "1970-01-02".toList),
    ("dateTime".toList, .str "1970-01-02T15:53:33+00:00".toList),
    ("shortDate".toList, .str "1/2/70".toList),
    ("writtenDate".toList, .str "January 1st, 1970".toList)]),
    ("text".toList, .obj [("name".toList, .str "Andy".toList),
    ("description".toList, .str "大懒虫".toList),
    ("likes".toList, .arr [.str "Pizza (food)".toList, .str "Pig (dog)".toList, .str "辣椒油 (food)".toList, .str "Rolf (dog)".toList, .str "Kirby (cat)".toList]),
    ("multiply".toList, .str "1*1".toList)]),
    ("number".toList, .obj [("int".toList, .num "1".toList),
    ("intstr".toList, .str "1".toList),
    ("float".toList, .num "1.1".toList),
    ("floatstr".toList, .str "1.1".toList),
    ("not".toList, .str "hello".toList),
    ("zero".toList, .str "0".toList),
    ("NaN".toList, .str "NaN".toList)]),
    ("attributes".toList, .obj [("nice".toList, .bool true),
    ("dead".toList, .bool false),
    ("fun".toList, .str "true".toList),
    ("enjoys_excessive_tests".toList, .str "false".toList),
    ("likes_binary".toList, .num "1".toList),
    ("killer_robot".toList, .num "0".toList),
    ("ternary".toList, .num "3".toList),
    ("not specified".toList, .str "".toList),
    ("buddhanature".toList, .null)]),
    ("net".toList, .obj [("router".toList, .str "192.168.1.0".toList),
    ("observed".toList, .arr [.str "attempted access from 192.168.1.1".toList, .str "received bad netblock 10.10.1.0/24 from blocklist".toList, .null]),
    ("not_ip".toList, .str "192.168.500.0".toList),
    ("not_cidr".toList, .str "192.168.1.0/33".toList)]),
    ("measurements".toList, .arr [.num "1".toList, .num "2".toList, .num "3".toList, .num "4".toList, .num "-1.1".toList, .num "2".toList, .num "3".toList, .num "4".toList]),
    ("quotes".toList, .arr [.obj [("quote".toList, .str "The most disastrous thing that you can ever learn is your first programming language".toList),
    ("source".toList, .str "Alan Kay".toList)], .obj [("quote".toList, .str "If debugging is the process of removing software bugs, then programming must be the process of putting them in".toList),
    ("source".toList, .str "Edsger Dijkstra".toList)], .obj [("quote".toList, .str "As soon as I have got flying to perfection, I have got a scheme about a steam engine.".toList),
    ("source".toList, .str "Ada Lovelace".toList)]]),
    ("arcade_scores".toList, .arr [.obj [("game".toList, .str "pacman".toList),
    ("score".toList, .num "1000".toList),
    ("felt".toList, .str "hopeful".toList)], .obj [("game".toList, .str "frogger".toList),
    ("score".toList, .num "5".toList),
    ("felt".toList, .str "indifferent".toList)], .obj [("game".toList, .str "pinbot".toList),
    ("score".toList, .num "45".toList),
    ("felt".toList, .str "uncoordinated".toList)]])]

/-- NewMatcher and Match on testdata.json. -/
def answers (q : String) (want : Bool) : Bool :=
  match newMatcher matcherEnv q.toUTF8.toList with
  | some (.ok (.ok (m, _))) =>
    match (m.match matcherEnv (.valid testDoc)).2 with
    | .result b => b == want
    | _ => false
  | _ => false

-- datetime.input
#guard answers "date.fullDate:<1980-01-01" true
#guard answers "date.fullDate:>1970-01-01" true
#guard answers "date.fullDate:>=1970-01-01" true
#guard answers "date.dateTime:<1980-01-01" true
#guard answers "date.dateTime:<=1980-01-01" true
#guard answers "date.shortDate:<1980-01-01" true
#guard answers "date.shortDate:1970-01-02" true
#guard answers "date.dateTime:<1970-01-02T15:53:34+00:00" true
#guard answers "date.writtenDate:<1970-02-01" true
#guard answers "date.fullDate:>1980-01-01" false
#guard answers "date.fullDate:><(1970-01-01,1970-01-03)" true
#guard answers "date.fullDate:><(1970-01-03,1970-01-04)" false
#guard answers "date.dateTime:1970-01-02" true
#guard answers "date.shortDate:1970-01-02" true
#guard answers "date.writtenDate:1970-01-01" true
#guard answers "text.name:><(1970-01-02,4000-01-02)" false
#guard answers "attributes.nice:><(1970-01-02,4000-01-02) OR attributes.dead:><(1970-01-02,4000-01-02)" false
#guard answers "date.not_there:><(1970-01-02,4000-01-02)" false
-- equality_list.input
#guard answers "text.name:(\"bob\", \"jim\", \"Andy\")" true
#guard answers "text.name:(\"bob\", \"jim\")" false
#guard answers "net.observed:(1,\"hello\",192.168.1.0/24)" true
#guard answers "number.int:(300,299,298,297,296,295,294,293,292,291,290,289,288,287,286,285,284,283,282,281,280,279,278,277,276,275,274,273,272,271,270,269,268,267,266,265,264,263,262,261,260,259,258,257,256,255,254,253,252,251,250,249,248,247,246,245,244,243,242,241,240,239,238,237,236,235,234,233,232,231,230,229,228,227,226,225,224,223,222,221,220,219,218,217,216,215,214,213,212,211,210,209,208,207,206,205,204,203,202,201,200,199,198,197,196,195,194,193,192,191,190,189,188,187,186,185,184,183,182,181,180,179,178,177,176,175,174,173,172,171,170,169,168,167,166,165,164,163,162,161,160,159,158,157,156,155,154,153,152,151,150,149,148,147,146,145,144,143,142,141,140,139,138,137,136,135,134,133,132,131,130,129,128,127,126,125,124,123,122,121,120,119,118,117,116,115,114,113,112,111,110,109,108,107,106,105,104,103,102,101,100,99,98,97,96,95,94,93,92,91,90,89,88,87,86,85,84,83,82,81,80,79,78,77,76,75,74,73,72,71,70,69,68,67,66,65,64,63,62,61,60,59,58,57,56,55,54,53,52,51,50,49,48,47,46,45,44,43,42,41,40,39,38,37,36,35,34,33,32,31,30,29,28,27,26,25,24,23,22,21,20,19,18,17,16,15,14,13,12,11,10,9,8,7,6,5,4,3,2,1,0)" true
-- exists_null.input
#guard answers "text.name:exists" true
#guard answers "text.greatest_fear:exists" false
#guard answers "!text.greatest_fear:exists" true
#guard answers "attributes.buddhanature:null" true
#guard answers "net.observed:null" false
#guard answers "quotes:exists" true
#guard answers "net:exists" true
#guard answers "net.router:exists" true
-- nested.input
#guard answers "measurements:<0" true
-- network.input
#guard answers "net.router:192.168.1.0/24" true
#guard answers "net.router:192.168.2.0/24" false
#guard answers "net.observed:192.168.1.0/24" true
#guard answers "net.observed:10.10.1.2" true
#guard answers "net.observed:10.0.0.0/8" true
#guard answers "net.observed:11.0.0.0/8" false
#guard answers "text.name:0.0.0.0/0" false
#guard answers "net.not_ip:0.0.0.0/0" false
#guard answers "net.not_cidr:0.0.0.0/0" false
#guard answers "net.not_there:0.0.0.0/0" false
#guard answers "number.int:0.0.0.0/0" false
-- numeric.input
#guard answers "number.int:1" true
#guard answers "number.int:>0" true
#guard answers "number.int:>1" false
#guard answers "number.int:>=0" true
#guard answers "number.int:<2" true
#guard answers "number.int:<=1" true
#guard answers "number.float:1.1" true
#guard answers "number.int:><(0,2)" true
#guard answers "number.int:><(1,2)" true
#guard answers "number.int:><(1,2)" true
#guard answers "number.int:><(2,3)" false
#guard answers "number.int:><(0,1.2)" true
#guard answers "number.int:><(1,1.2)" true
#guard answers "number.int:><(0,1.0)" true
#guard answers "number.int:><(2,2.1)" false
#guard answers "number.int:><(0.9,2)" true
#guard answers "number.int:><(1.0,2)" true
#guard answers "number.int:><(0.999,1)" true
#guard answers "number.int:><(1.001,2)" false
#guard answers "number.int:><(0.9,1.1)" true
#guard answers "number.int:><(1.0,1.1)" true
#guard answers "number.int:><(0.999,1.0)" true
#guard answers "number.int:><(1.001,1.002)" false
#guard answers "number.float:><(0,2)" true
#guard answers "number.float:><(2,3)" false
#guard answers "number.float:><(0,1.2)" true
#guard answers "number.float:><(0,1.1)" true
#guard answers "number.float:><(0,1.0)" false
#guard answers "number.float:><(0.9,2)" true
#guard answers "number.float:><(1.1,2)" true
#guard answers "number.float:><(1.2,2)" false
#guard answers "number.float:><(0.9,1.2)" true
#guard answers "number.float:><(1.1,1.2)" true
#guard answers "number.float:><(0.999,1.1)" true
#guard answers "number.float:><(1.001,1.002)" false
#guard answers "number.intstr:><(0,2)" true
#guard answers "attributes.nice:<0 OR attributes.nice:>0" false
#guard answers "number.not:<0 OR number.not:>0" false
#guard answers "attributes.nice:<0 OR attributes.nice:>0" false
-- regexp.input
#guard answers "text.name:/^And/" true
#guard answers "text.name:/dy$/" true
#guard answers "text.name:/nd/" true
#guard answers "text.name:/(?i)^andy/" true
#guard answers "text.name:/^andy/" false
#guard answers "text.description:/\\p{Han}{3}/" true
#guard answers "date.shortDate:/^\\d+\\/\\d+\\/\\d+/" true
#guard answers "attributes.dead:/./ OR attributes.buddhanature:/./" false
#guard answers "text.name:~/(?i)^andy/" true
-- string.input
#guard answers "text.likes:\"Pizza*\"" true
#guard answers "text.likes:\"*ood\"" true
#guard answers "quotes.quote:\"programming\"" true
#guard answers "quotes.quote:\"steam\"" true
#guard answers "quotes.quote:\"SoFtWaRe\"" true
#guard answers "text.name:\"A??y\" AND !(text.name:\"A?y\" OR text.name:\"A???y\")" true
#guard answers "text.multiply:\"1\\\\*1\" AND !number.floatstr:\"1\\\\*1\"" true
#guard answers "text.likes:\"?椒?\"" true
#guard answers "net.observed:\"access from\"" true

end Aql.Tests
