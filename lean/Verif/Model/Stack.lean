import Verif.Model.Peg
/-!
How deep the parser's recursion gets: the interpreter of `Model/Peg`, without its events, counting the
activations of `parseExpr` that are nested in each other. Every one of them is two or three frames of the Go
stack (`parseExpr`, the function of the kind of expression, and `parseRule` for a reference to a rule). The
stack of a goroutine may not grow beyond a fixed size; exceeding it ends the process, and `recover` cannot
prevent that.
-/

namespace Aql

/-- Evaluation of sub-expressions (parser_gen.go:3090-3152): the result, and how many calls of `parseExpr` were nested at most. `none`:
out of fuel. -/
abbrev DEval := Ctx → PExpr → VFrame → Cursor → Option (Res × Nat)

/-- Two evaluations made one after the other, as in the loops of parser_gen.go:3455-3474: the deeper counts, and the
result is that of the second. -/
def deeper (d : Nat) (o : Option (Res × Nat)) : Option (Res × Nat) := o.map fun p => (p.1, max d p.2)

/-- parser_gen.go:3455-3474, the loop of `parseSeqExpr`. -/
def dSeqLoop (ev : DEval) (ctx : Ctx) (start : Cursor) :
    List PExpr → List PV → VFrame → Cursor → Option (Res × Nat)
  | [], acc, fr, c => some (.ok (.list acc) c fr, 0)
  | e :: es, acc, fr, c =>
    match ev ctx e fr c with
    | none => none
    | some (.ok v c' fr', d) => deeper d (dSeqLoop ev ctx start es (acc ++ [v]) fr' c')
    | some (.fail _, d) => some (.fail start, d)
    | some (.panic p c', d) => some (.panic p c', d)

/-- parser_gen.go:3309-3331, the loop of `parseChoiceExpr`. -/
def dChoiceLoop (ev : DEval) (ctx : Ctx) (fr : VFrame) : List PExpr → Cursor → Option (Res × Nat)
  | [], c => some (.fail c, 0)
  | e :: es, c =>
    match ev ctx e [] c with
    | none => none
    | some (.ok v c' _, d) => some (.ok v c' fr, d)
    | some (.fail c', d) => deeper d (dChoiceLoop ev ctx fr es c')
    | some (.panic p c', d) => some (.panic p c', d)

/-- parser_gen.go:3504-3520 and 3404-3424, the loops of `parseZeroOrMoreExpr` and
`parseOneOrMoreExpr` (`one`). The first argument bounds the number of iterations. -/
def dRepLoop (ev : DEval) (ctx : Ctx) (fr : VFrame) (e : PExpr) (one : Bool) :
    Nat → List PV → Cursor → Option (Res × Nat)
  | 0, _, _ => none
  | k + 1, acc, c =>
    match ev ctx e [] c with
    | none => none
    | some (.ok v c' _, d) => deeper d (dRepLoop ev ctx fr e one k (acc ++ [v]) c')
    | some (.fail c', d) => some (if one ∧ acc = [] then .fail c' else .ok (.list acc) c' fr, d)
    | some (.panic p c', d) => some (.panic p c', d)

/-- parser_gen.go:3488-3502, `parseThrowExpr`. -/
def dThrowLoop (ev : DEval) (ctx : Ctx) (l : FailLabel) (fr : VFrame) :
    List (FailLabel × PExpr) → Cursor → Option (Res × Nat)
  | [], c => some (.fail c, 0)
  | (l', e) :: rs, c =>
    if l' = l then
      match ev ctx e fr c with
      | none => none
      | some (.ok v c' fr', d) => some (.ok v c' fr', d)
      | some (.fail c', d) => deeper d (dThrowLoop ev ctx l fr rs c')
      | some (.panic p c', d) => some (.panic p c', d)
    else dThrowLoop ev ctx l fr rs c

variable (E : Env)

/-- parser_gen.go:3090-3152 and the functions it calls: one expression, given the evaluation of its
sub-expressions and a bound for loops. The number is that of the sub-expressions; actions, literals and
classes do not call `parseExpr`. -/
def dStep (k : Nat) (ev : DEval) (ctx : Ctx) (e : PExpr) (fr : VFrame) (c : Cursor) : Option (Res × Nat) :=
  match e with
  /- parser_gen.go:3155-3178 -/
  | .action a e =>
    match ev ctx e fr c with
    | none => none
    | some (.ok _ c' fr', d) =>
      match runAct E a fr' (textOf c c') c.loc with
      | .error p => some (.panic p c', d)
      | .ok (v, _) => some (.ok v c' fr', d)
    | some (r, d) => some (r, d)
  | .seq es => dSeqLoop ev ctx c es [] fr c
  | .choice es => dChoiceLoop ev ctx fr es c
  /- parser_gen.go:3333-3346 -/
  | .label l e =>
    match ev ctx e [] c with
    | none => none
    | some (.ok v c' _, d) => some (.ok v c' ((l, v) :: fr), d)
    | some (r, d) => some (r, d)
  /- parser_gen.go:3438-3453 and 3061-3088 -/
  | .rule r =>
    match ev ctx (grammar r) [] c with
    | none => none
    | some (.ok v c' _, d) => some (.ok v c' fr, d)
    | some (r, d) => some (r, d)
  /- parser_gen.go:3348-3368 -/
  | .lit val ic _ =>
    match litLoop E ic val c with
    | (_, some c') => some (.ok (.bytes (textOf c c')) c' fr, 0)
    | (_, none) => some (.fail c, 0)
  /- parser_gen.go:3228-3292 -/
  | .cls chars ranges ic inv _ =>
    match c.rest with
    | [] => some (.fail c, 0)
    | s :: _ =>
      if clsMatch E chars ranges ic inv s.rune then some (.ok (.bytes (textOf c c.next)) c.next fr, 0)
      else some (.fail c, 0)
  /- parser_gen.go:3212-3226 -/
  | .any =>
    match c.rest with
    | [] => some (.fail c, 0)
    | _ :: _ => some (.ok (.bytes (textOf c c.next)) c.next fr, 0)
  /- parser_gen.go:3386-3402 -/
  | .not e =>
    match ev { ctx with inv := !ctx.inv } e [] c with
    | none => none
    | some (.ok _ _ _, d) => some (.fail c, d)
    | some (.fail _, d) => some (.ok .nil c fr, d)
    | some (.panic p c', d) => some (.panic p c', d)
  | .star e => dRepLoop ev ctx fr e false k [] c
  | .plus e => dRepLoop ev ctx fr e true k [] c
  /- parser_gen.go:3522-3532 -/
  | .opt e =>
    match ev ctx e [] c with
    | none => none
    | some (.ok v c' _, d) => some (.ok v c' fr, d)
    | some (.fail c', d) => some (.ok .nil c' fr, d)
    | some (.panic p c', d) => some (.panic p c', d)
  /- parser_gen.go:3426-3436 -/
  | .recover l e r => ev { ctx with recov := (l, r) :: ctx.recov } e fr c
  | .throw l => dThrowLoop ev ctx l fr ctx.recov c
  /- parser_gen.go:3476-3486 -/
  | .state _ => some (.ok .nil c fr, 0)

/-- parser_gen.go:3090-3152, `parseExpr`: one activation on top of those of its sub-expressions. -/
def dRun : Nat → DEval
  | 0, _, _, _, _ => none
  | f + 1, ctx, e, fr, c => (dStep E f (dRun f) ctx e fr c).map fun p => (p.1, p.2 + 1)

/-- parser_gen.go:2984-3048: how many activations of `parseExpr` are nested at most while an input is parsed.
`none` if the model runs out of fuel (it does not). -/
def stackDepth (input : List Sym) : Option Nat :=
  (dRun E (depthBound input.length) ⟨false, []⟩ (grammar .Start) [] (.init input)).map (·.2)

end Aql
