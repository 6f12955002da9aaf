/-!
The grammar, translated from internal/grammar/parser_gen.go:189-1882 by tools/gen_grammar.py.
Do not edit by hand.
-/

namespace Aql

/-- Rule names (`_` is `ws`). -/
inductive Rule
  | Start
  | Query
  | OrClause
  | AndClause
  | NotClause
  | Comparison
  | Field
  | FieldPiece
  | UnquotedFieldPiece
  | QuotedFieldPiece
  | Star
  | ValueList
  | Value
  | QuotedValue
  | EndingQuote
  | EscapedChar
  | EscapeSequence
  | SingleCharEscape
  | UnicodeEscape
  | HexDigit
  | ValueChars
  | RegexValue
  | RegexChar
  | RegexEscape
  | EndingSlash
  | BareValue
  | BoolValue
  | FloatValue
  | IntValue
  | IPValue
  | Octet
  | CIDRBlock
  | Timestamp
  | dateTime
  | fullDate
  | dateFullyear
  | dateMonth
  | dateMday
  | timeHour
  | timeMinute
  | timeSecond
  | timeSecfrac
  | timeNumoffset
  | timeOffset
  | partialTime
  | fullTime
  | Digit4
  | Digit2
  | logicalOR
  | logicalAND
  | logicalNOT
  | opNoArgs
  | opComp
  | ws
  | space
  | EOL
  | EOF
  | ErrUntermStr
  | ErrUntermRegex
  deriving DecidableEq, Repr

/-- Labels of sub-expressions. -/
inductive PLabel
  | query | clause | lhs | rhs | cmp | field | operation | values | pieces | qv | first | rest | value | val
  deriving DecidableEq, Repr

/-- Failure labels of throw and recovery expressions. -/
inductive FailLabel
  | errUntermStr | errUntermRegex
  deriving DecidableEq, Repr

/-- Action functions (parser_gen.go:1884-2229). -/
inductive Act
  | onStart1
  | onQuery1
  | onOrClause2
  | onAndClause2
  | onNotClause2
  | onComparison2
  | onComparison10
  | onComparison19
  | onField1
  | onUnquotedFieldPiece1
  | onQuotedFieldPiece1
  | onStar1
  | onValueList2
  | onValueList17
  | onValue2
  | onValue8
  | onQuotedValue2
  | onRegexValue2
  | onBoolValue1
  | onFloatValue1
  | onIntValue1
  | onIPValue1
  | onTimestamp1
  | onopNoArgs1
  | onopComp1
  deriving DecidableEq, Repr

/-- State code functions (parser_gen.go:2231-2249). -/
inductive StateCode
  | onErrUntermStr1 | onErrUntermRegex1
  deriving DecidableEq, Repr

/-- Grammar expressions (parser_gen.go:2489-2572), those that the grammar uses. A literal and a class
carry the text used in "expected" lists; a class carries its characters, ranges, `ignoreCase` and
`inverted`. -/
inductive PExpr
  | action (a : Act) (e : PExpr)
  | seq (es : List PExpr)
  | choice (es : List PExpr)
  | label (l : PLabel) (e : PExpr)
  | rule (r : Rule)
  | lit (val : List Char) (ignoreCase : Bool) (want : List Char)
  | cls (chars : List Char) (ranges : List (Char × Char)) (ignoreCase inverted : Bool)
      (want : List Char)
  | any
  | not (e : PExpr)
  | star (e : PExpr)
  | plus (e : PExpr)
  | opt (e : PExpr)
  | recover (l : FailLabel) (e r : PExpr)
  | throw (l : FailLabel)
  | state (s : StateCode)

/-- The expression of each rule. -/
def grammar : Rule → PExpr
  /- parser_gen.go:191-215 -/
  | .Start =>
    .action .onStart1
      (.seq [.label .query (.rule .Query),
        .rule .EOF])
  /- parser_gen.go:216-244 -/
  | .Query =>
    .action .onQuery1
      (.seq [.rule .ws,
        .label .clause (.rule .OrClause),
        .rule .ws])
  /- parser_gen.go:245-294 -/
  | .OrClause =>
    .choice [.action .onOrClause2
        (.seq [.label .lhs (.rule .AndClause),
          .rule .space,
          .rule .logicalOR,
          .rule .space,
          .label .rhs (.rule .OrClause)]),
      .rule .AndClause]
  /- parser_gen.go:295-344 -/
  | .AndClause =>
    .choice [.action .onAndClause2
        (.seq [.label .lhs (.rule .NotClause),
          .rule .space,
          .rule .logicalAND,
          .rule .space,
          .label .rhs (.rule .AndClause)]),
      .rule .NotClause]
  /- parser_gen.go:345-378 -/
  | .NotClause =>
    .choice [.action .onNotClause2
        (.seq [.rule .logicalNOT,
          .label .cmp (.rule .Comparison)]),
      .rule .Comparison]
  /- parser_gen.go:379-517 -/
  | .Comparison =>
    .choice [.action .onComparison2
        (.seq [.lit ['('] false "\"(\"".toList,
          .rule .ws,
          .label .query (.rule .OrClause),
          .rule .ws,
          .lit [')'] false "\")\"".toList]),
      .action .onComparison10
        (.seq [.label .field (.rule .Field),
          .rule .ws,
          .lit [':'] false "\":\"".toList,
          .rule .ws,
          .label .operation (.rule .opNoArgs)]),
      .action .onComparison19
        (.seq [.label .field (.rule .Field),
          .rule .ws,
          .lit [':'] false "\":\"".toList,
          .rule .ws,
          .label .operation (.opt (.rule .opComp)),
          .rule .ws,
          .label .values (.rule .ValueList)])]
  /- parser_gen.go:518-556 -/
  | .Field =>
    .action .onField1
      (.label .pieces (.seq [.rule .FieldPiece,
          .star (.seq [.lit ['.'] false "\".\"".toList,
              .rule .FieldPiece])]))
  /- parser_gen.go:557-577 -/
  | .FieldPiece =>
    .choice [.rule .QuotedFieldPiece,
      .rule .UnquotedFieldPiece,
      .rule .Star]
  /- parser_gen.go:578-596 -/
  | .UnquotedFieldPiece =>
    .action .onUnquotedFieldPiece1
      (.plus (.cls ['_', '-'] [('a', 'z'), ('0', '9')] true false "[a-z0-9_-]i".toList))
  /- parser_gen.go:597-612 -/
  | .QuotedFieldPiece =>
    .action .onQuotedFieldPiece1
      (.label .qv (.rule .QuotedValue))
  /- parser_gen.go:613-626 -/
  | .Star =>
    .action .onStar1
      (.lit ['*'] false "\"*\"".toList)
  /- parser_gen.go:627-714 -/
  | .ValueList =>
    .choice [.action .onValueList2
        (.seq [.lit ['('] false "\"(\"".toList,
          .rule .ws,
          .label .first (.rule .Value),
          .label .rest (.star (.seq [.rule .ws,
                .lit [','] false "\",\"".toList,
                .rule .ws,
                .rule .Value])),
          .rule .ws,
          .lit [')'] false "\")\"".toList]),
      .action .onValueList17
        (.label .value (.rule .Value))]
  /- parser_gen.go:715-762 -/
  | .Value =>
    .choice [.action .onValue2
        (.label .val (.choice [.rule .QuotedValue,
            .rule .RegexValue,
            .rule .BareValue])),
      .action .onValue8
        (.plus (.cls [' ', '\n', '\t', '\r'] [] false true "[^ \\n\\t\\r]".toList))]
  /- parser_gen.go:763-833 -/
  | .QuotedValue =>
    .recover .errUntermStr
      (.action .onQuotedValue2
        (.seq [.lit ['"'] false "\"\\\"\"".toList,
          .star (.choice [.seq [.not (.rule .EscapedChar),
                .any],
              .seq [.lit ['\\'] false "\"\\\\\"".toList,
                .rule .EscapeSequence]]),
          .rule .EndingQuote]))
      (.rule .ErrUntermStr)
  /- parser_gen.go:834-852 -/
  | .EndingQuote =>
    .choice [.lit ['"'] false "\"\\\"\"".toList,
      .throw .errUntermStr]
  /- parser_gen.go:853-864 -/
  | .EscapedChar =>
    .cls ['"', '\\'] [('\x00', '\x1f')] false false "[\\x00-\\x1f\"\\\\]".toList
  /- parser_gen.go:865-881 -/
  | .EscapeSequence =>
    .choice [.rule .SingleCharEscape,
      .rule .UnicodeEscape]
  /- parser_gen.go:882-892 -/
  | .SingleCharEscape =>
    .cls ['"', '\\', 'b', 'f', 'n', 'r', 't'] [] false false "[\"\\\\bfnrt]".toList
  /- parser_gen.go:893-923 -/
  | .UnicodeEscape =>
    .seq [.lit ['u'] false "\"u\"".toList,
      .rule .HexDigit,
      .rule .HexDigit,
      .rule .HexDigit,
      .rule .HexDigit]
  /- parser_gen.go:924-934 -/
  | .HexDigit =>
    .cls [] [('0', '9'), ('a', 'f')] true false "[0-9a-f]i".toList
  /- parser_gen.go:935-946 -/
  | .ValueChars =>
    .cls [' ', '!'] [('a', 'z'), ('A', 'Z'), ('0', '9')] false false "[a-zA-Z0-9 !]".toList
  /- parser_gen.go:947-986 -/
  | .RegexValue =>
    .recover .errUntermRegex
      (.action .onRegexValue2
        (.seq [.lit ['/'] false "\"/\"".toList,
          .star (.rule .RegexChar),
          .rule .EndingSlash]))
      (.rule .ErrUntermRegex)
  /- parser_gen.go:987-1042 -/
  | .RegexChar =>
    .choice [.seq [.not (.choice [.lit ['/'] false "\"/\"".toList,
            .lit ['\\'] false "\"\\\\\"".toList,
            .rule .EOL]),
        .any],
      .seq [.lit ['\\'] false "\"\\\\\"".toList,
        .rule .RegexEscape]]
  /- parser_gen.go:1043-1070 -/
  | .RegexEscape =>
    .seq [.not (.choice [.rule .EOL,
          .rule .EOF]),
      .any]
  /- parser_gen.go:1071-1089 -/
  | .EndingSlash =>
    .choice [.lit ['/'] false "\"/\"".toList,
      .throw .errUntermRegex]
  /- parser_gen.go:1090-1118 -/
  | .BareValue =>
    .choice [.rule .Timestamp,
      .rule .IPValue,
      .rule .FloatValue,
      .rule .IntValue,
      .rule .BoolValue]
  /- parser_gen.go:1119-1143 -/
  | .BoolValue =>
    .action .onBoolValue1
      (.choice [.lit ['f', 'a', 'l', 's', 'e'] false "\"false\"".toList,
        .lit ['t', 'r', 'u', 'e'] false "\"true\"".toList])
  /- parser_gen.go:1144-1191 -/
  | .FloatValue =>
    .action .onFloatValue1
      (.seq [.opt (.lit ['-'] false "\"-\"".toList),
        .plus (.cls [] [('0', '9')] false false "[0-9]".toList),
        .lit ['.'] false "\".\"".toList,
        .plus (.cls [] [('0', '9')] false false "[0-9]".toList)])
  /- parser_gen.go:1192-1223 -/
  | .IntValue =>
    .action .onIntValue1
      (.seq [.opt (.lit ['-'] false "\"-\"".toList),
        .plus (.cls [] [('0', '9')] false false "[0-9]".toList)])
  /- parser_gen.go:1224-1277 -/
  | .IPValue =>
    .action .onIPValue1
      (.seq [.rule .Octet,
        .lit ['.'] false "\".\"".toList,
        .rule .Octet,
        .lit ['.'] false "\".\"".toList,
        .rule .Octet,
        .lit ['.'] false "\".\"".toList,
        .rule .Octet,
        .opt (.rule .CIDRBlock)])
  /- parser_gen.go:1278-1313 -/
  | .Octet =>
    .seq [.cls [] [('0', '9')] false false "[0-9]".toList,
      .opt (.cls [] [('0', '9')] false false "[0-9]".toList),
      .opt (.cls [] [('0', '9')] false false "[0-9]".toList)]
  /- parser_gen.go:1314-1345 -/
  | .CIDRBlock =>
    .seq [.lit ['/'] false "\"/\"".toList,
      .cls [] [('0', '9')] false false "[0-9]".toList,
      .opt (.cls [] [('0', '9')] false false "[0-9]".toList)]
  /- parser_gen.go:1346-1366 -/
  | .Timestamp =>
    .action .onTimestamp1
      (.choice [.rule .dateTime,
        .rule .fullDate])
  /- parser_gen.go:1367-1400 -/
  | .dateTime =>
    .seq [.rule .fullDate,
      .choice [.lit ['t'] true "\"T\"i".toList,
        .lit [' '] false "\" \"".toList],
      .rule .fullTime]
  /- parser_gen.go:1401-1433 -/
  | .fullDate =>
    .seq [.rule .dateFullyear,
      .lit ['-'] false "\"-\"".toList,
      .rule .dateMonth,
      .lit ['-'] false "\"-\"".toList,
      .rule .dateMday]
  /- parser_gen.go:1434-1441 -/
  | .dateFullyear =>
    .rule .Digit4
  /- parser_gen.go:1442-1449 -/
  | .dateMonth =>
    .rule .Digit2
  /- parser_gen.go:1450-1457 -/
  | .dateMday =>
    .rule .Digit2
  /- parser_gen.go:1458-1465 -/
  | .timeHour =>
    .rule .Digit2
  /- parser_gen.go:1466-1473 -/
  | .timeMinute =>
    .rule .Digit2
  /- parser_gen.go:1474-1481 -/
  | .timeSecond =>
    .rule .Digit2
  /- parser_gen.go:1482-1506 -/
  | .timeSecfrac =>
    .seq [.lit ['.'] false "\".\"".toList,
      .plus (.cls [] [('0', '9')] false false "[0-9]".toList)]
  /- parser_gen.go:1507-1546 -/
  | .timeNumoffset =>
    .seq [.choice [.lit ['+'] false "\"+\"".toList,
        .lit ['-'] false "\"-\"".toList],
      .rule .timeHour,
      .lit [':'] false "\":\"".toList,
      .rule .timeMinute]
  /- parser_gen.go:1547-1565 -/
  | .timeOffset =>
    .choice [.lit ['z'] true "\"Z\"i".toList,
      .rule .timeNumoffset]
  /- parser_gen.go:1566-1605 -/
  | .partialTime =>
    .seq [.rule .timeHour,
      .lit [':'] false "\":\"".toList,
      .rule .timeMinute,
      .lit [':'] false "\":\"".toList,
      .rule .timeSecond,
      .opt (.rule .timeSecfrac)]
  /- parser_gen.go:1606-1622 -/
  | .fullTime =>
    .seq [.rule .partialTime,
      .rule .timeOffset]
  /- parser_gen.go:1623-1659 -/
  | .Digit4 =>
    .seq [.cls [] [('0', '9')] false false "[0-9]".toList,
      .cls [] [('0', '9')] false false "[0-9]".toList,
      .cls [] [('0', '9')] false false "[0-9]".toList,
      .cls [] [('0', '9')] false false "[0-9]".toList]
  /- parser_gen.go:1660-1682 -/
  | .Digit2 =>
    .seq [.cls [] [('0', '9')] false false "[0-9]".toList,
      .cls [] [('0', '9')] false false "[0-9]".toList]
  /- parser_gen.go:1683-1692 -/
  | .logicalOR =>
    .lit ['O', 'R'] false "\"OR\"".toList
  /- parser_gen.go:1693-1702 -/
  | .logicalAND =>
    .lit ['A', 'N', 'D'] false "\"AND\"".toList
  /- parser_gen.go:1703-1744 -/
  | .logicalNOT =>
    .choice [.seq [.lit ['N', 'O', 'T'] false "\"NOT\"".toList,
        .rule .space],
      .seq [.lit ['!'] false "\"!\"".toList,
        .opt (.rule .space)]]
  /- parser_gen.go:1745-1769 -/
  | .opNoArgs =>
    .action .onopNoArgs1
      (.choice [.lit ['e', 'x', 'i', 's', 't', 's'] false "\"exists\"".toList,
        .lit ['n', 'u', 'l', 'l'] false "\"null\"".toList])
  /- parser_gen.go:1770-1815 -/
  | .opComp =>
    .action .onopComp1
      (.choice [.lit ['>', '<'] false "\"><\"".toList,
        .lit ['~'] false "\"~\"".toList,
        .seq [.cls ['<', '>'] [] false false "[<>]".toList,
          .opt (.lit ['='] false "\"=\"".toList)]])
  /- parser_gen.go:1816-1830 -/
  | .ws =>
    .star (.cls [' ', '\n', '\t', '\r'] [] false false "[ \\n\\t\\r]".toList)
  /- parser_gen.go:1831-1844 -/
  | .space =>
    .plus (.cls [' ', '\n', '\t', '\r'] [] false false "[ \\n\\t\\r]".toList)
  /- parser_gen.go:1845-1854 -/
  | .EOL =>
    .lit ['\n'] false "\"\\n\"".toList
  /- parser_gen.go:1855-1864 -/
  | .EOF =>
    .not (.any)
  /- parser_gen.go:1865-1872 -/
  | .ErrUntermStr =>
    .state .onErrUntermStr1
  /- parser_gen.go:1873-1880 -/
  | .ErrUntermRegex =>
    .state .onErrUntermRegex1

end Aql
