import Verif.Model.Sampler
/-!
What `Sample` costs: sampler.go:75-122 once more, counting what is read of the document and what is written as keys.
`ObjectEach` and `ArrayEach` read the value they are given once, the values inside included (they look for their ends
before the callback sees them).
-/

namespace Aql

mutual

/-- The size of a value: no more than the length of its text without white space (a member has two quotes and a
colon beside its key and its value). -/
def SJson.size : SJson → Nat
  | .scalar => 1
  | .unknown => 1
  | .obj ms _ => SJson.sizeMembers ms + 2
  | .arr items _ => SJson.sizeItems items + 2

/-- The members of an object. -/
def SJson.sizeMembers : List (Str × SJson) → Nat
  | [] => 0
  | (k, v) :: ms => k.length + 3 + v.size + SJson.sizeMembers ms

/-- The elements of an array. -/
def SJson.sizeItems : List SJson → Nat
  | [] => 0
  | v :: vs => v.size + SJson.sizeItems vs

end

/-- What has been read, and the characters of the keys that have been counted. -/
structure Spent where
  reads : Nat
  writes : Nat
  deriving DecidableEq

/-- Both together. -/
def Spent.add (a b : Spent) : Spent := ⟨a.reads + b.reads, a.writes + b.writes⟩

mutual

/-- sampler.go:75-122, `sample` (see `sampleV`). -/
def costV (maxDepth : Int) : SJson → Str → Int → Option KeyMap → Spent × GoM (Option KeyMap × Bool)
  | .obj ms closed, path, depth, keys =>
    if depth > maxDepth then (⟨0, 0⟩, .ok (keys, false))
    else
      let r := costMembers maxDepth ms closed path depth keys
      (Spent.add ⟨(SJson.obj ms closed).size, 0⟩ r.1, r.2)
  | .arr items closed, path, depth, keys =>
    if depth > maxDepth then (⟨0, 0⟩, .ok (keys, false))
    else
      let r := costItems maxDepth items closed path depth keys false
      (Spent.add ⟨(SJson.arr items closed).size, 0⟩ r.1, r.2)
  | .unknown, _, depth, keys => (⟨0, 0⟩, .ok (keys, !decide (depth > maxDepth)))
  | .scalar, path, depth, keys =>
    if depth > maxDepth then (⟨0, 0⟩, .ok (keys, false))
    else
      match record path keys with
      | .error p => (⟨0, 0⟩, .error p)
      | .ok keys' => (⟨0, path.length⟩, .ok (keys', false))

/-- sampler.go:80-96, `ObjectEach` with its callback. -/
def costMembers (maxDepth : Int) : List (Str × SJson) → Bool → Str → Int → Option KeyMap →
    Spent × GoM (Option KeyMap × Bool)
  | [], closed, _, _, keys => (⟨0, 0⟩, .ok (keys, !closed))
  | (k, v) :: ms, closed, path, depth, keys =>
    match costV maxDepth v (path ++ keyPart k) (depth + 1) keys with
    | (n, .error p) => (n, .error p)
    | (n, .ok (keys', true)) => (n, .ok (keys', true))
    | (n, .ok (keys', false)) =>
      let r := costMembers maxDepth ms closed path depth keys'
      (n.add r.1, r.2)

/-- sampler.go:97-114, `ArrayEach` with its callback. -/
def costItems (maxDepth : Int) : List SJson → Bool → Str → Int → Option KeyMap → Bool →
    Spent × GoM (Option KeyMap × Bool)
  | [], closed, _, _, keys, aerr => (⟨0, 0⟩, .ok (keys, !closed || aerr))
  | v :: vs, closed, path, depth, keys, aerr =>
    if aerr then costItems maxDepth vs closed path depth keys aerr
    else if v.isArr then costItems maxDepth vs closed path depth keys aerr
    else
      match costV maxDepth v path depth keys with
      | (n, .error p) => (n, .error p)
      | (n, .ok (keys', aerr')) =>
        let r := costItems maxDepth vs closed path depth keys' aerr'
        (n.add r.1, r.2)

end

/-- sampler.go:40-73, what `Sample` spends after the check of the first and last byte. -/
def Sampler.spends (s : Sampler) : SampleIn → Spent
  | .empty => ⟨0, 0⟩
  | .rejected => ⟨0, 0⟩
  | .object ms closed => (costV s.maxDepth (.obj ms closed) [] 0 s.keys).1
  | .array items closed => (costV s.maxDepth (.arr items closed) [] 0 s.keys).1

/-- The size of the bytes given to `Sample`. -/
def SampleIn.size : SampleIn → Nat
  | .empty => 0
  | .rejected => 0
  | .object ms closed => (SJson.obj ms closed).size
  | .array items closed => (SJson.arr items closed).size

end Aql
