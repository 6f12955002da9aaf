import Verif.Model.Sampler
/-!
sampler/sampler.go:40-73 on bytes: the check of the first and last byte, and the error texts.
-/

namespace Aql

/-- What `buger/jsonparser` reports about the bytes of an object or an array (library). -/
structure ScanLib where
  members : List UInt8 → List (Str × SJson) × Bool
  items : List UInt8 → List SJson × Bool

/-- The errors of `Sample` itself and those from the scan. -/
inductive SampleErr
  | text (t : Str) (excerpt : List UInt8)
  | scan
  deriving DecidableEq

/-- sampler.go:42-47, 51, 56, 60: at most 100 bytes of the sample. -/
def excerpt (sample : List UInt8) : List UInt8 :=
  let sampleLen := if sample.length > 100 then 100 else sample.length
  sample.take sampleLen

/-- sampler.go:48-61: the kind of the sample, or the error. -/
def sampleKind (L : ScanLib) (sample : List UInt8) : GoM (Except SampleErr SampleIn) :=
  match sample[0]? with
  | none => .error .outOfRange
  | some first =>
    if first = 123 then
      if sample[sample.length - 1]? ≠ some 125 then
        .ok (.error (.text "unterminated JSON object: ".toList (excerpt sample)))
      else .ok (.ok (.object (L.members sample).1 (L.members sample).2))
    else if first = 91 then
      if sample[sample.length - 1]? ≠ some 93 then
        .ok (.error (.text "unterminated JSON array: ".toList (excerpt sample)))
      else .ok (.ok (.array (L.items sample).1 (L.items sample).2))
    else .ok (.error (.text "sample is not an object or array: ".toList (excerpt sample)))

/-- sampler.go:40-73, `Sample`: the sampler afterwards and the error returned. -/
def Sampler.sampleBytes (L : ScanLib) (s : Sampler) (sample : List UInt8) :
    GoM (Sampler × Option SampleErr) :=
  match sampleKind L sample with
  | .error p => .error p
  | .ok (.error e) => .ok (s, some e)
  | .ok (.ok d) =>
    match s.sample d with
    | .error p => .error p
    | .ok (s', true) => .ok (s', some .scan)
    | .ok (s', false) => .ok (s', none)

end Aql
