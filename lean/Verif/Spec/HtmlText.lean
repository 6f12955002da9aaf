import Verif.Model.Basic
/-!
Independent reading of HTML as a browser does it: the text that is left after the markup is removed.
Follows the tokenizer of the HTML standard (13.2.5), without distinguishing the elements whose content
is not markup (`script`, `style`, `textarea`, `title`, ...).
-/

namespace Aql.Spec

/-- States of the tokenizer. -/
inductive HState
  | text | tagOpen | endOpen | name | attr0 | attrName | attrAfter | value | dq | sq | unq
  | bogus | bang | bang1 | start0 | start1 | comment (dashes : Nat) | commentBang
  deriving DecidableEq

/-- ASCII letters. -/
def asciiLetter (c : Char) : Bool := ('a' ≤ c && c ≤ 'z') || ('A' ≤ c && c ≤ 'Z')

/-- What makes a preceding `<` the beginning of markup. -/
def opener (c : Char) : Bool := asciiLetter c || c = '/' || c = '!' || c = '?'

/-- What makes a preceding `&` the beginning of a character reference. -/
def refStart (c : Char) : Bool := asciiLetter c || ('0' ≤ c && c ≤ '9') || c = '#'

/-- White space in tags. -/
def tagSpace (c : Char) : Bool := c = ' ' || c = '\t' || c = '\n' || c = Char.ofNat 12

/-- A step outside text. -/
def HState.step : HState → Char → HState
  | .text, _ => .text
  | .tagOpen, c => if c = '/' then .endOpen else if c = '!' then .bang else if c = '?' then .bogus else .name
  | .endOpen, c => if asciiLetter c then .name else if c = '>' then .text else .bogus
  | .name, c => if tagSpace c || c = '/' then .attr0 else if c = '>' then .text else .name
  | .attr0, c => if tagSpace c || c = '/' then .attr0 else if c = '>' then .text else .attrName
  | .attrName, c => if tagSpace c then .attrAfter else if c = '/' then .attr0 else if c = '>' then .text
      else if c = '=' then .value else .attrName
  | .attrAfter, c => if tagSpace c then .attrAfter else if c = '/' then .attr0 else if c = '>' then .text
      else if c = '=' then .value else .attrName
  | .value, c => if tagSpace c then .value else if c = '"' then .dq else if c = '\'' then .sq
      else if c = '>' then .text else .unq
  | .dq, c => if c = '"' then .attr0 else .dq
  | .sq, c => if c = '\'' then .attr0 else .sq
  | .unq, c => if tagSpace c then .attr0 else if c = '>' then .text else .unq
  | .bogus, c => if c = '>' then .text else .bogus
  | .bang, c => if c = '-' then .bang1 else if c = '>' then .text else .bogus
  | .bang1, c => if c = '-' then .start0 else if c = '>' then .text else .bogus
  | .start0, c => if c = '-' then .start1 else if c = '>' then .text else .comment 0
  | .start1, c => if c = '-' then .comment 2 else if c = '>' then .text else .comment 0
  | .comment d, c => if c = '-' then .comment (min 2 (d + 1))
      else if d = 2 ∧ c = '>' then .text
      else if d = 2 ∧ c = '!' then .commentBang else .comment 0
  | .commentBang, c => if c = '>' then .text else if c = '-' then .comment 1 else .comment 0

/-- The text shown; `none` where it depends on the table of character references, or for NUL and carriage
returns, which browsers drop or replace. -/
def readHtml : HState → Str → Option Str
  | _, [] => some []
  | .text, c :: s =>
    if c = '<' && s.head?.any opener then readHtml .tagOpen s
    else if c = '&' && s.head?.any refStart then none
    else if c.toNat = 0 || c = '\r' then none
    else (readHtml .text s).map (c :: ·)
  | st, c :: s => readHtml (st.step c) s

/-- Texts that mean themselves. -/
def Verbatim (s : Str) : Prop :=
  (∀ c ∈ s, c.toNat ≠ 0 ∧ c ≠ '\r') ∧
  ∀ pre x y post, s = pre ++ x :: y :: post → ¬ (x = '<' ∧ opener y) ∧ ¬ (x = '&' ∧ refStart y)

example : readHtml .text "a <b c='>'>x</b> < y & z<!-- > -->!".toList = some "a x < y & z!".toList := by decide

end Aql.Spec
