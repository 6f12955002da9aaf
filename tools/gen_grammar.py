#!/usr/bin/env python3
"""Translate the grammar data of /repo/internal/grammar/parser_gen.go into Lean.

Usage: python3 tools/gen_grammar.py > lean/Verif/Model/GrammarData.lean
"""
import re, sys

PATH = "/repo/internal/grammar/parser_gen.go"
src = open(PATH).read()
start = src.index("var g = &grammar{")
tok_re = re.compile(r'''\s*(?:(//[^\n]*)|("(?:\\.|[^"\\])*")|('(?:\\.|[^'\\])*')|(\(\*parser\)\.\w+)|(\[\]\*?\w+(?:\{\})?)|([A-Za-z_]\w*)|(\d+)|([&{}:,=\[\]]))''')


class P:
    def __init__(self, pos):
        self.pos = pos
        self.advance()

    def advance(self):
        while True:
            m = tok_re.match(src, self.pos)
            if not m:
                raise SystemExit("lex error at " + src[self.pos:self.pos + 40])
            self.tpos = m.start() + (len(m.group(0)) - len(m.group(0).lstrip()))
            self.pos = m.end()
            if m.group(1):
                continue
            self.tok = m.group(0).strip()
            return

    def take(self, t=None):
        x = self.tok
        if t is not None and x != t:
            raise SystemExit("expected %s got %s" % (t, x))
        self.advance()
        return x

    def value(self):
        line = src.count("\n", 0, self.tpos) + 1
        if self.tok == "&":
            self.take()
        t = "rule" if self.tok == "{" else self.take()
        if t.startswith("[]") or re.match(r"[A-Za-z_]", t):
            if t in ("true", "false"):
                return t == "true"
            if self.tok == "{" or t.endswith("{}"):
                if t.endswith("{}"):
                    t = t[:-2]
                self.take("{")
                items, fields = [], {}
                while self.tok != "}":
                    save = (self.pos, self.tok, self.tpos)
                    if re.match(r"[A-Za-z_]\w*$", self.tok):
                        name = self.take()
                        if self.tok == ":":
                            self.take()
                            fields[name] = self.value()
                            if self.tok == ",":
                                self.take()
                            continue
                        self.pos, self.tok, self.tpos = save
                    items.append(self.value())
                    if self.tok == ",":
                        self.take()
                end = src.count("\n", 0, self.tpos) + 1
                self.take("}")
                return {"type": t, "fields": fields, "items": items, "line": line, "end": end}
            return t
        return t


def unq(s):
    """Go string or rune literal."""
    body = s[1:-1]
    out, i = [], 0
    while i < len(body):
        c = body[i]
        if c != "\\":
            out.append(c)
            i += 1
            continue
        d = body[i + 1]
        if d == "x":
            out.append(chr(int(body[i + 2:i + 4], 16)))
            i += 4
        elif d == "u":
            out.append(chr(int(body[i + 2:i + 6], 16)))
            i += 6
        else:
            out.append({"n": "\n", "t": "\t", "r": "\r", "\\": "\\", '"': '"', "'": "'"}[d])
            i += 2
    return "".join(out)


def lstr(s):
    return '"' + s.replace("\\", "\\\\").replace('"', '\\"').replace("\n", "\\n").replace("\t", "\\t").replace("\r", "\\r") + '"'


def lchar(c):
    if c in "\n\t\r\\'":
        return "'" + {"\n": "\\n", "\t": "\\t", "\r": "\\r", "\\": "\\\\", "'": "\\'"}[c] + "'"
    if ord(c) < 32:
        return "'\\x%02x'" % ord(c)
    return "'" + c + "'"


def rname(n):
    return "ws" if n == "_" else n


def act(fn):
    return "on" + re.match(r"\(\*parser\)\.callon(\w+)", fn).group(1)


labels, fails, acts, states = [], [], [], []


def note(lst, x):
    if x not in lst:
        lst.append(x)
    return x


def b(x):
    return "true" if x else "false"


def ex(v, ind):
    t, f = v["type"], v["fields"]
    pad = "\n" + " " * ind
    if t == "actionExpr":
        return ".action .%s%s(%s)" % (note(acts, act(f["run"])), pad, ex(f["expr"], ind + 2))
    if t == "seqExpr":
        return ".seq [" + ("," + pad).join(ex(e, ind + 2) for e in f["exprs"]["items"]) + "]"
    if t == "choiceExpr":
        return ".choice [" + ("," + pad).join(ex(e, ind + 2) for e in f["alternatives"]["items"]) + "]"
    if t == "labeledExpr":
        return ".label .%s (%s)" % (note(labels, unq(f["label"])), ex(f["expr"], ind + 2))
    if t == "ruleRefExpr":
        return ".rule .%s" % rname(unq(f["name"]))
    if t == "litMatcher":
        return ".lit [%s] %s %s.toList" % (", ".join(lchar(c) for c in unq(f["val"])), b(f["ignoreCase"]), lstr(unq(f["want"])))
    if t == "charClassMatcher":
        chars = [unq(c) for c in f["chars"]["items"]] if "chars" in f else []
        rng = [unq(c) for c in f["ranges"]["items"]] if "ranges" in f else []
        assert "classes" not in f
        pairs = ", ".join("(%s, %s)" % (lchar(rng[i]), lchar(rng[i + 1])) for i in range(0, len(rng), 2))
        return ".cls [%s] [%s] %s %s %s.toList" % (
            ", ".join(lchar(c) for c in chars), pairs, b(f["ignoreCase"]), b(f["inverted"]), lstr(unq(f["val"])))
    if t == "anyMatcher":
        return ".any"
    if t == "notExpr":
        return ".not (%s)" % ex(f["expr"], ind + 2)
    if t == "zeroOrMoreExpr":
        return ".star (%s)" % ex(f["expr"], ind + 2)
    if t == "oneOrMoreExpr":
        return ".plus (%s)" % ex(f["expr"], ind + 2)
    if t == "zeroOrOneExpr":
        return ".opt (%s)" % ex(f["expr"], ind + 2)
    if t == "recoveryExpr":
        labs = [unq(x) for x in f["failureLabel"]["items"]]
        assert len(labs) == 1
        return ".recover .%s%s(%s)%s(%s)" % (note(fails, labs[0]), pad, ex(f["expr"], ind + 2), pad, ex(f["recoverExpr"], ind + 2))
    if t == "throwExpr":
        return ".throw .%s" % note(fails, unq(f["label"]))
    if t == "stateCodeExpr":
        return ".state .%s" % note(states, act(f["run"]))
    raise SystemExit("unknown " + t)


p = P(src.index("&grammar", start))
g = p.value()
rules = g["fields"]["rules"]["items"]
body = []
for r in rules:
    n = rname(unq(r["fields"]["name"]))
    body.append((n, r["line"], r["end"], ex(r["fields"]["expr"], 6)))

print("""/-!
The grammar, translated from internal/grammar/parser_gen.go:189-1882 by tools/gen_grammar.py.
Do not edit by hand.
-/

namespace Aql

/-- Rule names (`_` is `ws`). -/
inductive Rule
""" + "\n".join("  | " + n for n, _, _, _ in body) + """
  deriving DecidableEq, Repr

/-- Labels of sub-expressions. -/
inductive PLabel
  """ + " ".join("| " + x for x in labels) + """
  deriving DecidableEq, Repr

/-- Failure labels of throw and recovery expressions. -/
inductive FailLabel
  """ + " ".join("| " + x for x in fails) + """
  deriving DecidableEq, Repr

/-- Action functions (parser_gen.go:1884-2229). -/
inductive Act
""" + "\n".join("  | " + x for x in acts) + """
  deriving DecidableEq, Repr

/-- State code functions (parser_gen.go:2231-2249). -/
inductive StateCode
  """ + " ".join("| " + x for x in states) + """
  deriving DecidableEq, Repr

/-- Grammar expressions (parser_gen.go:2489-2572), those that the grammar uses. A literal and a class
carry the text used in "expected" lists; a class carries its characters, ranges, `ignoreCase` and
`inverted`. -/
inductive PExpr
  | action (a : Act) (e : PExpr)
  | seq (es : List PExpr)
  | choice (es : List PExpr)
  | label (l : PLabel) (e : PExpr)
  | rule (r : Rule)
  | lit (val : List Char) (ignoreCase : Bool) (want : List Char)
  | cls (chars : List Char) (ranges : List (Char × Char)) (ignoreCase inverted : Bool)
      (want : List Char)
  | any
  | not (e : PExpr)
  | star (e : PExpr)
  | plus (e : PExpr)
  | opt (e : PExpr)
  | recover (l : FailLabel) (e r : PExpr)
  | throw (l : FailLabel)
  | state (s : StateCode)

/-- The expression of each rule. -/
def grammar : Rule → PExpr""")
for n, l, e, x in body:
    print("  /- parser_gen.go:%d-%d -/" % (l, e))
    print("  | .%s =>\n    %s" % (n, x))
print("\nend Aql")
