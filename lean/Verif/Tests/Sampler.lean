import Verif.Model.SampleBytes
/-!
sampler/sampler_test.go on the model. The documents are written as jsonparser iterates over them.
-/

namespace Aql.Tests

/-- A member. -/
def mem (k : String) (v : SJson) : Str × SJson := (k.toList, v)

/-- An object, an array, and a scalar member. -/
def o (ms : List (Str × SJson)) : SJson := .obj ms true
def l (vs : List SJson) : SJson := .arr vs true
def leaf (k : String) : Str × SJson := mem k .scalar

/-- sampler_test.go:11-23. -/
def sdoc1 : SampleIn := .object [mem "a" (o [leaf "a1", mem "a2" (o [leaf "a21", mem "a22" (l [.scalar]),
  mem "a23" (o [leaf "a231"]), mem "a24" (l [l []])])])] true

/-- sampler_test.go:24-43. -/
def sdoc2 : SampleIn := .object [mem "a" (o [mem "a2" (o [leaf "a24"]), leaf "a3",
  mem "a4" (o [mem "a41" (o [mem "a411" (o [leaf "a4111",
    mem "a4112" (o [mem "a41121" (o [leaf "a411211"])])])])])])] true

/-- sampler_test.go:44-54. -/
def sdoc3 : SampleIn := .object [mem "b" (o [mem "b1" (o [leaf "b11"]), leaf "b2", mem "b3" (o [leaf "b31"])])] true

/-- Samples the documents one after the other. -/
def sampleAll (s : Sampler) : List SampleIn → GoM (Sampler × Bool)
  | [] => .ok (s, false)
  | d :: ds =>
    match s.sample d with
    | .ok (s', false) => sampleAll s' ds
    | r => r

/-- sampler_test.go:58-75. -/
def sampled : GoM (Sampler × Bool) :=
  sampleAll (.new 5) ((List.range 100).map fun i =>
    if i % 2 = 0 then (if i % 10 = 0 then sdoc3 else sdoc1) else sdoc2)

#guard match sampled with
  | .ok (s, false) => s.scanned = 100 && s.getKeys.length = 10 && (s.keysAtThreshold 33).length = 7
  | _ => false

/-- sampler_test.go:262-296, `testDocCase`: keys in any order, and whether an error is returned. -/
def docCase (d : SampleIn) (keys : List String) (err : Bool) : Bool :=
  match (Sampler.new 5).sample d with
  | .ok (s, e) => e == err && s.getKeys.length == keys.length && keys.all fun k => s.getKeys.contains k.toList
  | .error _ => false

#guard docCase (.object [mem "a" (o [mem "a1" (o [leaf "a11"]), leaf "a2", mem "a3" (o [mem "a31" (o [mem "a311"
  (o [leaf "a 3111", mem "a3112" (o [mem "a31121" (o [leaf "a311211"])])])])])])] true)
  ["a.a1.a11", "a.a2", "a.a3.a31.a311.\"a 3111\""] false
#guard docCase (.object [mem "a" (l [o [leaf "a1"], o [leaf "a2"], o [leaf "a3"], o [leaf "a4", leaf "a5"]])] true)
  ["a.a1", "a.a2", "a.a3", "a.a4", "a.a5"] false
#guard docCase (.array [o [leaf "b1"], o [leaf "b2"], o [leaf "b3"], o [leaf "b4", leaf "b5"]] true)
  ["b1", "b2", "b3", "b4", "b5"] false
-- sampler_test.go:166-217: not terminated; not terminated; a string
#guard docCase .rejected [] true
-- sampler_test.go:218-230: an object that is not closed where jsonparser looks for a value
#guard docCase (.object [] false) [] true
-- sampler_test.go:231-260: unknown values
#guard docCase (.object [mem "a" .unknown] true) [] true
#guard docCase (.object [mem "a" (.arr [.scalar, .unknown] false)] true) [] true
#guard docCase (.object [mem "a" (l [.scalar, .obj [mem "a1" .unknown] false, .scalar])] true) [] true

/-- The errors of the first three bad documents, from their bytes, whatever jsonparser reports. -/
def bytesCase (L : ScanLib) (doc : String) : Option SampleErr :=
  match (Sampler.new 5).sampleBytes L doc.toUTF8.toList with
  | .ok (s, e) => if s.getKeys.isEmpty then e else none
  | .error _ => none

def anyLib : ScanLib := ⟨fun _ => ([leaf "k"], true), fun _ => ([o [leaf "k"]], true)⟩

def errText (e : Option SampleErr) : Option String :=
  match e with
  | some (.text t _) => some (String.ofList t)
  | _ => none

#guard errText (bytesCase anyLib "{\n\"a\":{\"a1\": {\"a11\":1},\"a2\":\"a2v\"}\n\t\t") = some "unterminated JSON object: "
#guard errText (bytesCase anyLib "[{\"b1\":\"b1v\"},{\"b4\":\"b4v\",\"b5\":\"b5v\"}") = some "unterminated JSON array: "
#guard errText (bytesCase anyLib "\"hello\"") = some "sample is not an object or array: "

end Aql.Tests
