import Verif.Model.Peg
/-!
Errors of the parser that leave it without a value: the literal cannot be converted, or there is no
value at all. The others leave a value behind (`0` for a number out of range, the pattern read so far
for one that is not closed).
-/

namespace Aql.Spec

/-- Does the error leave the parser without a value? -/
def fatalKind : ErrKind → Bool
  | .badString | .badRegex _ | .badFloat _ | .badNet _ | .badTime _ => true
  | .singleParen | .closingParen | .unknownValue _ => true
  | .encoding | .untermString | .untermRegex | .badInt _ | .badBool _ => false
  | .emptyField | .panic _ | .noMatch _ => false

/-- Is such an error recorded? -/
def hasFatal (log : List Ev) : Bool := (errorsOf log).any fun p => fatalKind p.2.kind

/-- How their messages begin. -/
def fatalPhrases : List Str :=
  ["invalid string", "invalid regular expression", "invalid float value", "invalid network value",
    "invalid datetime value", "unnecessary parenthesis", "unexpected closing parenthesis",
    "unknown type of value"].map String.toList

end Aql.Spec
