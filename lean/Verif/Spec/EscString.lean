import Verif.Spec.HtmlText
/-!
Independent reading of graphviz label strings (escString in its documentation): the lines shown.
-/

namespace Aql.Spec

/-- Put a character in front of the first line. -/
def onFirst (c : Char) : List Str → List Str
  | [] => [[c]]
  | l :: ls => (c :: l) :: ls

/-- The lines that a label shows. `\n`, `\l`, `\r` and line breaks end a line, any other escape shows its
character. `none` for the escapes that insert something else (`\G`, `\L`, ...) and for character
references. -/
def labelLines : Str → Option (List Str)
  | [] => some [[]]
  | '\\' :: c :: s =>
    if c = 'n' ∨ c = 'l' ∨ c = 'r' then (labelLines s).map ([] :: ·)
    else if c = 'G' ∨ c = 'L' ∨ c = 'N' ∨ c = 'E' ∨ c = 'T' ∨ c = 'H' then none
    else (labelLines s).map (onFirst c)
  | c :: s =>
    if c = '\\' then labelLines s
    else if c = '\n' then (labelLines s).map ([] :: ·)
    else if c = '&' && s.head?.any refStart then none
    else (labelLines s).map (onFirst c)

example : labelLines "a\\nb\\\\c\\d".toList = some ["a".toList, "b\\cd".toList] := by decide

end Aql.Spec
