import Verif.Model.Peg
/-!
Which calls of `parseExpr` a call makes, read off parser_gen.go:3155-3532: a relation, independent of any
count. What a call has made before it makes the next one is given by the results of `run`.
-/

namespace Aql.Spec

/-- A call of `parseExpr`: the expression, its context and frame, and where the parser is. -/
structure Call where
  ctx : Ctx
  e : PExpr
  fr : VFrame
  c : Cursor

/-- The call has the result. -/
def Gives (E : Env) (x : Call) (r : Res) : Prop := ∃ f l, run E f x.ctx x.e x.fr x.c = .done l r

/-- `e'` is an element of the sequence, and the ones before it match and lead to `fr'` and `c'`. -/
inductive SeqAt (E : Env) (ctx : Ctx) : List PExpr → VFrame → Cursor → PExpr → VFrame → Cursor → Prop
  | here {e es fr c} : SeqAt E ctx (e :: es) fr c e fr c
  | next {e es fr c v c1 fr1 e' fr' c'} : Gives E ⟨ctx, e, fr, c⟩ (.ok v c1 fr1) →
      SeqAt E ctx es fr1 c1 e' fr' c' → SeqAt E ctx (e :: es) fr c e' fr' c'

/-- `e'` is an alternative, and the ones before it do not match. -/
inductive ChoiceAt (E : Env) (ctx : Ctx) : List PExpr → Cursor → PExpr → Cursor → Prop
  | here {e es c} : ChoiceAt E ctx (e :: es) c e c
  | next {e es c c1 e' c'} : Gives E ⟨ctx, e, [], c⟩ (.fail c1) → ChoiceAt E ctx es c1 e' c' →
      ChoiceAt E ctx (e :: es) c e' c'

/-- `c'` is reached by matching `e` any number of times. -/
inductive RepAt (E : Env) (ctx : Ctx) (e : PExpr) : Cursor → Cursor → Prop
  | here {c} : RepAt E ctx e c c
  | next {c v c1 fr1 c'} : Gives E ⟨ctx, e, [], c⟩ (.ok v c1 fr1) → RepAt E ctx e c1 c' → RepAt E ctx e c c'

/-- `e'` is a recovery expression for the label, and the ones before it do not match. -/
inductive ThrowAt (E : Env) (ctx : Ctx) (l : FailLabel) (fr : VFrame) :
    List (FailLabel × PExpr) → Cursor → PExpr → Cursor → Prop
  | here {e rs c} : ThrowAt E ctx l fr ((l, e) :: rs) c e c
  | skip {l' e rs c e' c'} : l' ≠ l → ThrowAt E ctx l fr rs c e' c' → ThrowAt E ctx l fr ((l', e) :: rs) c e' c'
  | next {e rs c c1 e' c'} : Gives E ⟨ctx, e, fr, c⟩ (.fail c1) → ThrowAt E ctx l fr rs c1 e' c' →
      ThrowAt E ctx l fr ((l, e) :: rs) c e' c'

/-- The first call makes the second one directly. -/
inductive Makes (E : Env) : Call → Call → Prop
  | action {ctx a e fr c} : Makes E ⟨ctx, .action a e, fr, c⟩ ⟨ctx, e, fr, c⟩
  | seq {ctx es fr c e' fr' c'} : SeqAt E ctx es fr c e' fr' c' → Makes E ⟨ctx, .seq es, fr, c⟩ ⟨ctx, e', fr', c'⟩
  | choice {ctx es fr c e' c'} : ChoiceAt E ctx es c e' c' → Makes E ⟨ctx, .choice es, fr, c⟩ ⟨ctx, e', [], c'⟩
  | label {ctx l e fr c} : Makes E ⟨ctx, .label l e, fr, c⟩ ⟨ctx, e, [], c⟩
  | rule {ctx r fr c} : Makes E ⟨ctx, .rule r, fr, c⟩ ⟨ctx, grammar r, [], c⟩
  | not {ctx e fr c} : Makes E ⟨ctx, .not e, fr, c⟩ ⟨{ ctx with inv := !ctx.inv }, e, [], c⟩
  | star {ctx e fr c c'} : RepAt E ctx e c c' → Makes E ⟨ctx, .star e, fr, c⟩ ⟨ctx, e, [], c'⟩
  | plus {ctx e fr c c'} : RepAt E ctx e c c' → Makes E ⟨ctx, .plus e, fr, c⟩ ⟨ctx, e, [], c'⟩
  | opt {ctx e fr c} : Makes E ⟨ctx, .opt e, fr, c⟩ ⟨ctx, e, [], c⟩
  | recover {ctx l e h fr c} :
      Makes E ⟨ctx, .recover l e h, fr, c⟩ ⟨{ ctx with recov := (l, h) :: ctx.recov }, e, fr, c⟩
  | throw {ctx l fr c e' c'} : ThrowAt E ctx l fr ctx.recov c e' c' → Makes E ⟨ctx, .throw l, fr, c⟩ ⟨ctx, e', fr, c'⟩

/-- A chain of that many calls, each made by the one before it, that begins with the given call. -/
inductive Chain (E : Env) : Nat → Call → Prop
  | one {x} : Chain E 1 x
  | more {n x y} : Makes E x y → Chain E n y → Chain E (n + 1) x

/-- The first call of a parse. -/
def firstCall (input : List Sym) : Call := ⟨⟨false, []⟩, grammar .Start, [], .init input⟩

end Aql.Spec
