import Verif.Model.Options
/-!
internal/grammar/parser_gen.go: the option `Recover` (2374-2386), together with the options of
`Model/Options`.
-/

namespace Aql

variable (E : Env)

/-- What a call of `Parse` comes to: it returns, or it panics. `panics none` is the panic with
`errMaxExprCnt`. -/
inductive RParseOut
  | returns (r : OParseOut)
  | panics (p : Option GoPanic)

/-- parser_gen.go:2993-3011: a panic is turned into an error only if `p.recover` is set. -/
def rFinish (recover : Bool) (log : List Ev) (r : ORes) : RParseOut :=
  match r, recover with
  | .panic p _, false => .panics p
  | r, _ => .returns (oFinish log r)

/-- `Parse(filename, b, MaxExpressions(o.maxExprs), Memoize(o.memoize), Recover(recover))`,
parser_gen.go:2435-2437. `none` if the model runs out of fuel (it does not). -/
def rParse (o : Opts) (recover : Bool) (input : List Sym) : Option RParseOut :=
  match oRunStart E o input with
  | .oof => none
  | .done log r _ => some (rFinish recover log r)

end Aql
