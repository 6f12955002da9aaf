import Verif.Proofs.Walked
/-!
Property C83: the demo server opens no other files than the five of the demo.
-/

namespace Aql

open Spec

variable (cwd : List Str) (dir : Str)

theorem demoFiles_eq : demoFiles cwd dir = demoNames.reverse.map fun n => (n, fullPath cwd dir n) := by
  simp [demoFiles, demoNames, addFile, fullPath]

/-- The name that is looked up is a plain name only if one component is left. -/
theorem fsName_plain : ∀ (xs : List Str) (n : Str), n ≠ ['.'] → '/' ∉ n → fsName xs = n → xs = [n]
  | [], n, h, _, e => absurd e.symm h
  | [x], n, _, _, e => by rw [fsName] at e; rw [e]
  | x :: y :: ys, n, _, h, e => by
    refine absurd ?_ h
    rw [fsName] at e
    · rw [← e]; simp
    · simp

/-- **C83, exactly.** A request opens a file iff it asks for the root, then it is index.html, or its path
leads from the root to the name of one of the four other files of the demo and does not end in /index.html.
The file is the one with that name in the directory that was given. -/
theorem C83_served_exact (p : Str) (f : List Str) : served cwd dir p = some f ↔
    (p = ['/'] ∧ FileIn cwd dir "index.html".toList f) ∨
    (∃ n ∈ ["wasm_exec.js".toList, "hwt.css".toList, "style.css".toList, "aqlparse.wasm".toList],
      Leads [] p [n] ∧ FileIn cwd dir n f ∧ ¬ "/index.html".toList <:+ p) := by
  simp only [leads_iff, fileIn_iff]
  change _ ↔ _ ∨ ∃ n ∈ demoNames, [n] = cleanPath p ∧ _
  have hidx : asksIndex p = true ↔ "/index.html".toList <:+ p := by
    unfold asksIndex
    rw [List.isPrefixOf_iff_prefix, List.reverse_prefix]
  unfold served
  by_cases h1 : p = ['/']
  · subst h1
    rw [if_pos rfl]
    constructor
    · intro h; exact .inl ⟨rfl, (Option.some.inj h).symm⟩
    · rintro (⟨-, h⟩ | ⟨n, -, h, -⟩)
      · rw [h]
      · exact absurd h (by simp [cleanPath, splitSlash, cleanRooted])
  · rw [if_neg h1]
    by_cases h2 : asksIndex p = true
    · rw [if_pos h2]
      constructor
      · intro h; cases h
      · rintro (⟨h, -⟩ | ⟨n, -, -, -, h⟩)
        · exact absurd h h1
        · exact absurd (hidx.1 h2) h
    · rw [if_neg h2]
      have hplain : ∀ n ∈ demoNames, n ≠ ['.'] ∧ '/' ∉ n := by decide
      rw [openFile, demoFiles_eq, List.find?_map, Option.map_map, Option.map_eq_some_iff]
      constructor
      · rintro ⟨n, hn, rfl⟩
        have hmem := List.mem_of_find?_eq_some hn
        have heq := List.find?_some hn
        simp only [Function.comp_apply, decide_eq_true_eq] at heq
        rw [List.mem_reverse] at hmem
        obtain ⟨h3, h4⟩ := hplain n hmem
        exact .inr ⟨n, hmem, (fsName_plain _ n h3 h4 heq.symm).symm, rfl, fun h => h2 (hidx.2 h)⟩
      · rintro (⟨h, -⟩ | ⟨n, hn, hc, rfl, -⟩)
        · exact absurd h h1
        · refine ⟨n, ?_, rfl⟩
          rw [← hc, fsName]
          have : ∀ m ∈ demoNames, demoNames.reverse.find? (fun x => decide (x = m)) = some m := by decide
          exact this n hn

/-- **C83.** Whatever the path of a request, also with `..` in it, the file opened lies directly in the
directory that was given and is one of the five files. -/
theorem C83_confined (p : Str) (f : List Str) (h : served cwd dir p = some f) :
    ∃ n ∈ ["index.html".toList, "wasm_exec.js".toList, "hwt.css".toList, "style.css".toList,
      "aqlparse.wasm".toList], FileIn cwd dir n f := by
  rcases (C83_served_exact cwd dir p f).1 h with ⟨-, h⟩ | ⟨n, hn, -, h, -⟩
  · exact ⟨_, by simp, h⟩
  · exact ⟨n, List.mem_cons_of_mem _ hn, h⟩

/-- **C83.** All five are reachable under their names, index.html as the root. -/
theorem C83_reachable : (∃ f, served cwd dir ['/'] = some f ∧ FileIn cwd dir "index.html".toList f) ∧
    ∀ n ∈ ["wasm_exec.js".toList, "hwt.css".toList, "style.css".toList, "aqlparse.wasm".toList],
      ∃ f, served cwd dir ('/' :: n) = some f ∧ FileIn cwd dir n f := by
  simp only [fileIn_iff, exists_eq_right]
  refine ⟨rfl, fun n hn => ?_⟩
  rw [C83_served_exact]
  refine .inr ⟨n, hn, ?_, (fileIn_iff ..).2 rfl, ?_⟩
  · rw [leads_iff]; revert n hn; decide
  · revert n hn
    simp only [← List.isSuffixOf_iff_suffix]
    decide

example : served ["home".toList] "demo".toList "/a/../hwt.css".toList =
    some ["home".toList, "demo".toList, "hwt.css".toList] ∧
  served ["home".toList] "demo".toList "/../../etc/passwd".toList = none ∧
  served ["home".toList] "/x/../y".toList "/".toList = some ["y".toList, "index.html".toList] := by decide

end Aql
