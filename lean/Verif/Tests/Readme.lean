import Verif.Props.EndToEnd
/-!
The rows of the operator tables of README.md on the model: which of them are queries.
-/

namespace Aql.Tests

/-- The row is a query that gets a matcher. -/
def isQuery (s : String) : Bool :=
  match newMatcher testEnv s.toUTF8.toList with
  | some (.ok (.ok _)) => true
  | _ => false

#guard ["field:\"value\"", "field:1", "field:1.0", "field:1970-01-01", "field:1970-01-02T15:53:33+00:00", "field:true",
  "field:false", "field:/attack of the \\d+ foot (?:cat|dog)/", "field:192.168.1.0/24", "field:exists", "field:null",
  "field:(\"value1\", \"value2\", \"value3\")", "field:(1,2)", "field:(1.1, 2.2)",
  "field:(1970-01-01, 1970-01-02T15:53:33Z)", "field:>1", "field:<2.5", "field:<=1970-01-01", "field:><(1, 2)",
  "field:><(2.1, 2.2)", "field:><(1970-01-01, 1970-01-02)"].all isQuery

-- this row of "Numeric Comparison" is written with U+2212, which is no minus sign of the language
#guard !isQuery "field:>=1970-01-02T15:53:33−05:00"
#guard isQuery "field:>=1970-01-02T15:53:33-05:00"

end Aql.Tests
