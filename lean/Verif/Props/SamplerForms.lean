import Verif.Props.Sampled
import Verif.Spec.Respelled
import Verif.Spec.Nesting
/-!
Properties C101 and C103 for the sampler (sampler/sampler.go): spellings, and documents under a name.
-/

namespace Aql

open Spec

variable {E : Env} {m : Int} {ds : List SampleIn} {s s' : Sampler} {k : Str}

theorem ofItems_append (xs ys : List Json) :
    SJson.ofItems E (xs ++ ys) = SJson.ofItems E xs ++ SJson.ofItems E ys := by
  induction xs with
  | nil => rfl
  | cons x xs ih => simp only [List.cons_append, SJson.ofItems, ih]

theorem ofMembers_congr {xs ys : List (Str × Json)} (h : SJson.ofMembers E xs = SJson.ofMembers E ys)
    (pre : List (Str × Json)) : SJson.ofMembers E (pre ++ xs) = SJson.ofMembers E (pre ++ ys) := by
  induction pre with
  | nil => exact h
  | cons p pre ih =>
    obtain ⟨raw, v⟩ := p
    simp only [List.cons_append, SJson.ofMembers, ih]

/-- **C101, the sampler.** Documents that differ only in spellings are the same to the sampler, whatever strings are
replaced by what strings. -/
theorem C101_sampler {d d' : Json} (h : Respelled E (fun _ _ => True) d d') : SJson.ofJson E d = SJson.ofJson E d' := by
  induction h with
  | refl => rfl
  | symm _ ih => exact ih.symm
  | trans _ _ h1 h2 => exact h1.trans h2
  | num | str => simp only [SJson.ofJson]
  | @name pre raw raw' v post hs =>
    have : SJson.ofMembers E ((raw, v) :: post) = SJson.ofMembers E ((raw', v) :: post) := by
      unfold SameString at hs
      simp only [SJson.ofMembers, hs]
    simp only [SJson.ofJson, ofMembers_congr this pre]
  | inArr _ ih => simp only [SJson.ofJson, ofItems_append, SJson.ofItems, ih]
  | @inObj pre raw a b post _ ih =>
    have : SJson.ofMembers E ((raw, a) :: post) = SJson.ofMembers E ((raw, b) :: post) := by
      simp only [SJson.ofMembers, ih]
    simp only [SJson.ofJson, ofMembers_congr this pre]

/-- The document as the only member of an object. -/
def putUnder (k : Str) : SampleIn → SampleIn
  | .object ms closed => .object [(k, .obj ms closed)] true
  | .array items closed => .object [(k, .arr items closed)] true
  | d => d

theorem docLeaf_under (d : SampleIn) (p : List Str) : DocLeaf (putUnder k d) p ↔ ∃ q, p = k :: q ∧ DocLeaf d q := by
  cases d with
  | empty => simp [putUnder, DocLeaf]
  | rejected => simp [putUnder, DocLeaf]
  | object ms closed =>
    constructor
    · rintro (_ | ⟨h1, h2⟩)
      cases List.mem_singleton.1 h1
      exact ⟨_, rfl, h2⟩
    · rintro ⟨q, rfl, h⟩
      exact .member (List.mem_singleton.2 rfl) h
  | array items closed =>
    constructor
    · rintro (_ | ⟨h1, h2⟩)
      cases List.mem_singleton.1 h1
      exact ⟨_, rfl, h2⟩
    · rintro ⟨q, rfl, h⟩
      exact .member (List.mem_singleton.2 rfl) h

theorem samples_leaves (h : Samples s ds s') : ∀ d ∈ ds, ∀ p, DocLeaf d p → (p.length : Int) ≤ s.maxDepth → p ≠ [] := by
  induction h with
  | nil => simp
  | @cons s s1 s' d ds h _ ih =>
    obtain ⟨keys, hv, rfl⟩ := sample_visited h
    intro e he p hp hl
    rcases List.mem_cons.1 he with rfl | he
    · rintro rfl
      exact hv.1 [] ((mem_docLeaves _ _ _).2 ⟨hp, hl⟩) rfl
    · exact ih e he p hp hl

theorem dotted_cons {p : List Str} (h : p ≠ []) : dotted (k :: p) = segment k ++ '.' :: dotted p := by
  cases p with
  | nil => exact absurd rfl h
  | cons => simp [dotted, List.intercalate]

/-- **C103, the sampler.** Documents put under a name have, one level deeper, the keys of the documents with the name and
a dot before them. -/
theorem C103_sampler (h : Samples (Sampler.new m) ds s) (h' : Samples (Sampler.new (m + 1)) (ds.map (putUnder k)) s')
    (key : Str) : key ∈ s'.getKeys ↔ ∃ key0 ∈ s.getKeys, key = segment k ++ '.' :: key0 := by
  have hl := samples_leaves h
  simp only [(C44_keys h').1, (C44_keys h).1, HasKey, List.mem_map]
  constructor
  · rintro ⟨_, ⟨d, hd, rfl⟩, p, hp, hm, rfl⟩
    obtain ⟨q, rfl, hq⟩ := (docLeaf_under d p).1 hp
    have hm' : (q.length : Int) ≤ m := by simp only [List.length_cons] at hm; omega
    exact ⟨dotted q, ⟨d, hd, q, hq, hm', rfl⟩, dotted_cons (hl d hd q hq hm')⟩
  · rintro ⟨_, ⟨d, hd, q, hq, hm, rfl⟩, rfl⟩
    exact ⟨_, ⟨d, hd, rfl⟩, k :: q, (docLeaf_under d _).2 ⟨q, rfl, hq⟩, by simp only [List.length_cons]; omega,
      dotted_cons (hl d hd q hq hm)⟩

-- a document, and the document under a name
example : ∃ s s', Samples (Sampler.new 2) [sampleDoc] s ∧ Samples (Sampler.new 3) ([sampleDoc].map (putUnder "p".toList)) s' ∧
    s.getKeys = ["a.\"b c\"".toList, "d".toList] ∧ s'.getKeys = ["p.a.\"b c\"".toList, "p.d".toList] := by
  refine ⟨_, _, .cons rfl (.nil _), .cons rfl (.nil _), ?_, ?_⟩ <;> decide +kernel

end Aql
