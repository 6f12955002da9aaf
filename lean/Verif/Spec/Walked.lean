import Verif.Model.Basic
/-!
Where a path leads, as a walk through directories. Nothing here is shared with the model of the server.
-/

namespace Aql.Spec

/-- Going from the directory `here` through the components `xs`, one after the other, one arrives at `there`:
an empty component and `.` stay, `..` goes up, at the root it stays, any other name goes down. -/
inductive Steps (here : List Str) : List Str → List Str → Prop
  | start : Steps here [] here
  | stay {xs there} (x : Str) : Steps here xs there → x = [] ∨ x = ['.'] → Steps here (xs ++ [x]) there
  | up {xs there} (y : Str) : Steps here xs (there ++ [y]) → Steps here (xs ++ [['.', '.']]) there
  | top {xs} : Steps here xs [] → Steps here (xs ++ [['.', '.']]) []
  | down {xs there} (x : Str) : Steps here xs there → x ≠ [] → x ≠ ['.'] → x ≠ ['.', '.'] →
      Steps here (xs ++ [x]) (there ++ [x])

/-- The path `p` leads from `here` to `there`: `p` is its components with slashes between them. -/
def Leads (here : List Str) (p : Str) (there : List Str) : Prop :=
  ∃ xs, xs ≠ [] ∧ (∀ x ∈ xs, '/' ∉ x) ∧ p = List.intercalate ['/'] xs ∧ Steps here xs there

/-- `f` is the file `name` in the directory `dir`; a `dir` that does not begin with a slash is taken from the
working directory. -/
def FileIn (cwd : List Str) (dir name : Str) (f : List Str) : Prop :=
  ∃ d, Leads (if ['/'] <+: dir then [] else cwd) dir d ∧ f = d ++ [name]

end Aql.Spec
