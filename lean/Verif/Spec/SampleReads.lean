import Verif.Model.SamplerCost
import Verif.Spec.Sample
/-!
What there is to read in a document for the sampler (sampler.go:75-122), independent of how it goes through it.
-/

namespace Aql.Spec

mutual

/-- The objects and arrays of a value, each with the number of names on the way to it. An array that is an
element of an array is left out, with all that is in it. -/
def inside : SJson → List (Nat × SJson)
  | .obj ms closed => (0, .obj ms closed) :: insideMembers ms
  | .arr items closed => (0, .arr items closed) :: insideItems items
  | _ => []

/-- Those of the members of an object. -/
def insideMembers : List (Str × SJson) → List (Nat × SJson)
  | [] => []
  | (_, v) :: ms => (inside v).map (fun x => (x.1 + 1, x.2)) ++ insideMembers ms

/-- Those of the elements of an array. -/
def insideItems : List SJson → List (Nat × SJson)
  | [] => []
  | v :: vs => (if isList v then [] else inside v) ++ insideItems vs

end

mutual

/-- The paths to the scalars of a value, one for each. -/
def scalarPaths : SJson → List (List Str)
  | .scalar => [[]]
  | .unknown => []
  | .obj ms _ => memberPaths ms
  | .arr items _ => elementPaths items

/-- Those to the scalars in the members of an object. -/
def memberPaths : List (Str × SJson) → List (List Str)
  | [] => []
  | (k, v) :: ms => (scalarPaths v).map (k :: ·) ++ memberPaths ms

/-- Those to the scalars in the elements of an array. -/
def elementPaths : List SJson → List (List Str)
  | [] => []
  | v :: vs => (if isList v then [] else scalarPaths v) ++ elementPaths vs

end

/-- The sizes of the objects and arrays at most `maxDepth` names deep, added up. -/
def sizeWithin (maxDepth : Int) (v : SJson) : Nat :=
  (((inside v).filter fun x => (x.1 : Int) ≤ maxDepth).map fun x => x.2.size).sum

/-- The lengths of the written paths to the scalars at most `maxDepth` names deep, a dot before each. -/
def pathsWithin (maxDepth : Int) (v : SJson) : Nat :=
  (((scalarPaths v).filter fun p => (p.length : Int) ≤ maxDepth).map fun p => (dotted p).length + 1).sum

/-- The value that a text is. -/
def SampleIn.value? : SampleIn → Option SJson
  | .object ms closed => some (.obj ms closed)
  | .array items closed => some (.arr items closed)
  | _ => none

end Aql.Spec
