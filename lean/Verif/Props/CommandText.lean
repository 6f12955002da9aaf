import Verif.Props.SampleText
/-!
Property C124, at the command line: cmd/aqltest/main.go on a query text and a file that holds a text.
-/

namespace Aql

open Spec

variable (E : Env) (W : World) (spare : Nat) (short : Bool)

/-- aqltest on a file with a JSON text that is not nested too deeply: it prints the answer of the query on the document the
text encodes, and exits with 0. -/
theorem C124_command (hW : ∀ t, W.docOf (utf8 t) = docOfText t) (prog file : List UInt8) (s t : Str) (n : Node)
    (hq : Query E s n) (hok : AllOk E n) (hre : LitsIn (ReParses E) n) {d : Json} (hf : W.readFile file = some (utf8 t))
    (hd : Encodes t d) (hn : nestedIn d ≤ 10000) (hp : PathsIn (Plain d) n) :
    ∃ log stats b, aqltest E W spare short [prog, utf8 s, file] =
        some (.ok ⟨log, [if b then "true".toList else "false".toList, stats], 0⟩) ∧ (b = true ↔ Sat E d n) := by
  obtain ⟨m, msgs, stats, b, -, h1, h2, -⟩ := C78_answered E W spare short prog file (utf8 t) s n hq hok hre d hf
    (by rw [hW, (C124_document t d).2 ⟨hd, hn⟩]) hp
  exact ⟨_, stats, b, h1, h2⟩

/-- On a file with any other text it prints nothing, says last in its log that the JSON is invalid, and exits with 1. -/
theorem C124_command_invalid (hW : ∀ t, W.docOf (utf8 t) = docOfText t) (prog file : List UInt8) (s t : Str) (n : Node)
    (hq : Query E s n) (hok : AllOk E n) (hre : LitsIn (ReParses E) n) (hf : W.readFile file = some (utf8 t))
    (ht : ∀ d, Encodes t d → 10000 < nestedIn d) :
    ∃ log, aqltest E W spare short [prog, utf8 s, file] = some (.ok ⟨log ++ [.invalidJSON], [], 1⟩) := by
  obtain ⟨m, msgs, hm⟩ := (C59_who_gets_a_matcher E (utf8 s)).1 s n rfl hq hok hre
  have hi : W.docOf (utf8 t) = .invalid := by rw [hW, (C124_invalid t).2 ht]
  simp only [aqltest, (C79_query_is_no_file E W s n hq).2, hm, Option.map_some, hf, hi, Matcher.match]
  exact ⟨_, rfl⟩

/-- There are such worlds, with any files. -/
theorem world_exists (files : List UInt8 → Option (List UInt8)) :
    ∃ W : World, W.readFile = files ∧ ∀ t, W.docOf (utf8 t) = docOfText t := by
  refine ⟨⟨files, fun b => docOfText ((decode b).map Sym.rune), fun _ => true⟩, rfl, fun t => ?_⟩
  show docOfText ((decode (utf8 t)).map Sym.rune) = docOfText t
  rw [decode_utf8]
  simp [List.map_map, Function.comp_def, Sym.rune]

end Aql
