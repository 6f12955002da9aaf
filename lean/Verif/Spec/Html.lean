import Verif.Model.Basic
/-!
Independent reading of HTML-like labels: the texts shown in the cells of a table.
-/

namespace Aql.Spec

/-- Markup or text. -/
inductive HTok
  | tag (body : Str)
  | text (s : Str)
  deriving DecidableEq

/-- Text outside tags, then a tag from `<` to `>`; a `<` inside a tag and an unclosed tag are errors.
`cur` is what has been read of the current piece. -/
def htmlTokens (inTag : Bool) (cur : Str) : Str → Option (List HTok)
  | [] => if inTag then none else some [.text cur]
  | c :: s =>
    if inTag then
      if c = '<' then none
      else if c = '>' then (htmlTokens false [] s).map (.tag cur :: ·)
      else htmlTokens true (cur ++ [c]) s
    else if c = '<' then (htmlTokens true [] s).map (.text cur :: ·)
    else htmlTokens false (cur ++ [c]) s

/-- The character references of the five special characters; any other `&` is an error. -/
def htmlDecode : Str → Option Str
  | [] => some []
  | '&' :: '#' :: '3' :: '4' :: ';' :: s => (htmlDecode s).map ('"' :: ·)
  | '&' :: '#' :: '3' :: '9' :: ';' :: s => (htmlDecode s).map ('\'' :: ·)
  | '&' :: 'a' :: 'm' :: 'p' :: ';' :: s => (htmlDecode s).map ('&' :: ·)
  | '&' :: 'l' :: 't' :: ';' :: s => (htmlDecode s).map ('<' :: ·)
  | '&' :: 'g' :: 't' :: ';' :: s => (htmlDecode s).map ('>' :: ·)
  | c :: s => if c = '&' then none else (htmlDecode s).map (c :: ·)

/-- The texts of the `TD` elements; inside one only `I` markup is allowed. `cell` is the text of the
current cell. -/
def htmlCells (cell : Option Str) : List HTok → Option (List Str)
  | [] => if cell.isNone then some [] else none
  | t :: ts =>
    match cell, t with
    | none, .text _ => htmlCells none ts
    | none, .tag b => if "TD".toList.isPrefixOf b then htmlCells (some []) ts else htmlCells none ts
    | some s, .text u => htmlCells (some (s ++ u)) ts
    | some s, .tag b =>
      if b = "/TD".toList then
        match htmlDecode s, htmlCells none ts with
        | some x, some xs => some (x :: xs)
        | _, _ => none
      else if b = "I".toList ∨ b = "/I".toList then htmlCells (some s) ts
      else none

/-- What the cells of a label show; `none` if it is not well formed. -/
def shownCells (label : Str) : Option (List Str) := (htmlTokens false [] label).bind (htmlCells none)

end Aql.Spec
