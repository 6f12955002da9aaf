#!/usr/bin/env python3
"""Writes lean/Verif/Tests/Matcher.lean from jsonmatcher/testdata in /repo: the document as a `Json`
term and one `#guard` per query that the Go test runs (marker T or F; S is skipped there)."""
import json, re, os, glob
root = os.path.dirname(os.path.dirname(os.path.abspath(__file__)))
td = "/repo/jsonmatcher/testdata/"

def lit(s):
    return '"' + s.replace("\\", "\\\\").replace('"', '\\"').replace("\n", "\\n") + '"'

class Num(str):
    pass

doc = json.load(open(td + "testdata.json"), parse_int=Num, parse_float=Num)
strings = set()

def term(v):
    if v is None: return ".null"
    if v is True: return ".bool true"
    if v is False: return ".bool false"
    if isinstance(v, Num): return f".num {lit(v)}.toList"
    if isinstance(v, str):
        strings.add(v)
        return f".str {lit(v)}.toList"
    if isinstance(v, list): return ".arr [" + ", ".join(term(x) for x in v) + "]"
    return ".obj [" + ",\n    ".join(f"({lit(k)}.toList, {term(x)})" for k, x in v.items()) + "]"

body = term(doc)
tests = []
for p in sorted(glob.glob(td + "*.input")):
    name, mark, q = "", None, []
    for line in open(p).read().split("\n") + ["T "]:
        if line == "" or line[0] == "#":
            continue
        if re.match(r"^[TFS] ", line):
            if mark and q:
                tests.append((os.path.basename(p), name, mark, "\n".join(q)))
            mark, name, q = line[0], line[2:], []
        else:
            q.append(line)
tests = [t for t in tests if t[2] != "S"]
pats = []
for t in tests:
    for m in re.finditer(r":~?(/(?:[^/\\]|\\.)*/)", t[3]):
        src = m.group(1).replace("\\/", "/").strip("/")
        if src not in pats:
            pats.append(src)
table = []
for src in pats:
    py = src.replace(r"\p{Han}", "[一-鿿]")
    table.append((src, [s for s in sorted(strings) if re.search(py, s)]))
out = ["""import Verif.Model.Api
/-!
Generated by tools/gen_matcher_tests.py from jsonmatcher/testdata: the queries of jsonmatcher_test.go
and their expected answers, run on the model. The tables of regular expression matches and parsed dates
cover the strings of the document.
-/

namespace Aql.Tests

/-- Which strings of the document the patterns of the tests match. -/
def reTable : List (String × List String) := ["""]
out.append(",\n".join(f"  ({lit(a)}, [{', '.join(map(lit, b))}])" for a, b in table) + "]")
out.append("""
/-- `testEnv` with these tables. -/
def matcherEnv : Env :=
  { testEnv with
    reMatch := fun src t => reTable.any fun e => e.1.toList == src && e.2.any (·.toList == t)
    dateparse := fun t =>
      if t = "1/2/70".toList then parseDay "1970-01-02".toList
      else if t = "January 1st, 1970".toList then parseDay "1970-01-01".toList
      else testEnv.dateparse t }

/-- testdata.json. -/
def testDoc : Json :=
  """ + body + """

/-- NewMatcher and Match on testdata.json. -/
def answers (q : String) (want : Bool) : Bool :=
  match newMatcher matcherEnv q.toUTF8.toList with
  | some (.ok (.ok (m, _))) =>
    match (m.match matcherEnv (.valid testDoc)).2 with
    | .result b => b == want
    | _ => false
  | _ => false
""")
last = None
for f, n, mk, q in tests:
    if f != last:
        out.append(f"-- {f}")
        last = f
    out.append(f"#guard answers {lit(q)} {'true' if mk == 'T' else 'false'}")
out.append("\nend Aql.Tests")
open(root + "/lean/Verif/Tests/Matcher.lean", "w").write("\n".join(out) + "\n")
print(len(tests), "tests")
