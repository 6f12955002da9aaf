import Verif.Model.Sampler
/-!
sampler/sampler.go once more, for callers that recover from a panic of `Sample`: the map of keys is shared, so what
was counted before the panic stays. Nothing in sampler.go recovers or restores.
-/

namespace Aql

/-- How a call ends. -/
inductive Fate
  /-- it returns; the flag says whether an error -/
  | returns (err : Bool)
  | panics (p : GoPanic)
  deriving DecidableEq

mutual

/-- sampler.go:75-122, `sample`: the keys afterwards and how it ends. -/
def runV (maxDepth : Int) : SJson → Str → Int → Option KeyMap → Option KeyMap × Fate
  | .obj ms closed, path, depth, keys =>
    if depth > maxDepth then (keys, .returns false)
    else runMembers maxDepth ms closed path depth keys
  | .arr items closed, path, depth, keys =>
    if depth > maxDepth then (keys, .returns false)
    else runItems maxDepth items closed path depth keys false
  | .unknown, _, depth, keys => (keys, .returns (!decide (depth > maxDepth)))
  | .scalar, path, depth, keys =>
    if depth > maxDepth then (keys, .returns false)
    else
      match record path keys with
      | .error p => (keys, .panics p)
      | .ok keys' => (keys', .returns false)

/-- sampler.go:80-96, `ObjectEach` with its callback. -/
def runMembers (maxDepth : Int) : List (Str × SJson) → Bool → Str → Int → Option KeyMap → Option KeyMap × Fate
  | [], closed, _, _, keys => (keys, .returns (!closed))
  | (k, v) :: ms, closed, path, depth, keys =>
    match runV maxDepth v (path ++ keyPart k) (depth + 1) keys with
    | (keys', .panics p) => (keys', .panics p)
    | (keys', .returns true) => (keys', .returns true)
    | (keys', .returns false) => runMembers maxDepth ms closed path depth keys'

/-- sampler.go:97-114, `ArrayEach` with its callback; the flag is `aerr != nil`. -/
def runItems (maxDepth : Int) : List SJson → Bool → Str → Int → Option KeyMap → Bool → Option KeyMap × Fate
  | [], closed, _, _, keys, aerr => (keys, .returns (!closed || aerr))
  | v :: vs, closed, path, depth, keys, aerr =>
    if aerr then runItems maxDepth vs closed path depth keys aerr
    else if v.isArr then runItems maxDepth vs closed path depth keys aerr
    else
      match runV maxDepth v path depth keys with
      | (keys', .panics p) => (keys', .panics p)
      | (keys', .returns aerr') => runItems maxDepth vs closed path depth keys' aerr'

end

/-- sampler.go:66-72, the end of `Sample`: line 71 is not reached after a panic. -/
def Sampler.close (s : Sampler) : Option KeyMap × Fate → Sampler × Fate
  | (_, .returns true) => ({ s with keys := none }, .returns true)
  | (keys, .returns false) => ({ s with keys := keys, totalDocs := s.totalDocs + 1 }, .returns false)
  | (keys, .panics p) => ({ s with keys := keys }, .panics p)

/-- sampler.go:40-73, `Sample`: the sampler afterwards, also if the call panics. -/
def Sampler.run (s : Sampler) (d : SampleIn) : Sampler × Fate :=
  match d with
  | .empty => (s, .panics .outOfRange)
  | .rejected => (s, .returns true)
  | .object ms closed => s.close (runV s.maxDepth (.obj ms closed) [] 0 s.keys)
  | .array items closed => s.close (runV s.maxDepth (.arr items closed) [] 0 s.keys)

end Aql
