import Mathlib.Data.List.Induction
import Verif.Model.Server
import Verif.Spec.Walked
/-!
`path.Clean` walks: the components that are left are the place where the path leads.
-/

namespace Aql

open Spec

theorem cleanRooted_snoc (x : Str) : ∀ (xs done : List Str), cleanRooted done (xs ++ [x]) =
    if x = [] ∨ x = ['.'] then cleanRooted done xs
    else if x = ['.', '.'] then (cleanRooted done xs).dropLast else cleanRooted done xs ++ [x]
  | [], done => by simp [cleanRooted]
  | y :: ys, done => by
    simp only [List.cons_append, cleanRooted]
    by_cases h1 : y = [] ∨ y = ['.']
    · simp only [if_pos h1]; exact cleanRooted_snoc x ys _
    · simp only [if_neg h1]
      by_cases h2 : y = ['.', '.']
      · simp only [if_pos h2]; exact cleanRooted_snoc x ys _
      · simp only [if_neg h2]; exact cleanRooted_snoc x ys _

theorem steps_cleanRooted (here : List Str) : ∀ xs, Steps here xs (cleanRooted here xs) := by
  intro xs
  induction xs using List.reverseRecOn with
  | nil => exact .start
  | append_singleton xs x ih =>
    rw [cleanRooted_snoc]
    by_cases h1 : x = [] ∨ x = ['.']
    · rw [if_pos h1]; exact .stay x ih h1
    · rw [if_neg h1]
      by_cases h2 : x = ['.', '.']
      · rw [if_pos h2, h2]
        rcases List.eq_nil_or_concat (cleanRooted here xs) with h | ⟨l, y, h⟩
        · rw [h] at ih ⊢; exact .top ih
        · rw [h] at ih ⊢
          rw [List.concat_eq_append] at ih ⊢
          rw [List.dropLast_concat]
          exact .up y ih
      · rw [if_neg h2]
        obtain ⟨h3, h4⟩ := not_or.1 h1
        exact .down x ih h3 h4 h2

theorem steps_eq {here xs there : List Str} (h : Steps here xs there) : there = cleanRooted here xs := by
  induction h with
  | start => rfl
  | stay x _ hx ih => rw [cleanRooted_snoc, if_pos hx]; exact ih
  | up y _ ih => rw [cleanRooted_snoc, if_neg (by decide), if_pos rfl, ← ih, List.dropLast_concat]
  | top _ ih => rw [cleanRooted_snoc, if_neg (by decide), if_pos rfl, ← ih]; rfl
  | down x _ h1 h2 h3 ih => rw [cleanRooted_snoc, if_neg (not_or.2 ⟨h1, h2⟩), if_neg h3, ← ih]

theorem splitSlash_ne : ∀ s, splitSlash s ≠ []
  | [] => by simp [splitSlash]
  | c :: s => by
    rw [splitSlash]
    split
    · simp
    · split <;> simp

theorem splitSlash_slash : ∀ s, ∀ x ∈ splitSlash s, '/' ∉ x
  | [], x, h => by simp [splitSlash] at h; simp [h]
  | c :: s, x, h => by
    have ih := splitSlash_slash s
    rw [splitSlash] at h
    split at h
    · rcases List.mem_cons.1 h with rfl | h
      · simp
      · exact ih x h
    · rename_i hc
      split at h
      · rename_i hs; exact absurd hs (splitSlash_ne s)
      · rename_i y ys hs
        rw [hs] at ih
        rcases List.mem_cons.1 h with rfl | h
        · intro hm
          rcases List.mem_cons.1 hm with h' | h'
          · exact hc h'.symm
          · exact ih y (by simp) h'
        · exact ih x (by simp [h])

theorem intercalate_splitSlash : ∀ s, s = List.intercalate ['/'] (splitSlash s)
  | [] => by simp [splitSlash, List.intercalate]
  | c :: s => by
    have ih := intercalate_splitSlash s
    rw [splitSlash]
    rcases hs : splitSlash s with _ | ⟨y, ys⟩
    · exact absurd hs (splitSlash_ne s)
    · rw [hs] at ih
      split
      · rename_i hc
        subst hc
        rw [List.intercalate_cons_cons, ← ih]; rfl
      · cases ys with
        | nil => simp at ih ⊢; exact ih
        | cons z zs =>
          rw [List.intercalate_cons_cons] at ih ⊢
          rw [ih]; simp

theorem splitSlash_word : ∀ (x : Str), '/' ∉ x → splitSlash x = [x]
  | [], _ => rfl
  | c :: x, h => by
    rw [splitSlash, if_neg (fun hc => h (by simp [hc])), splitSlash_word x (fun hm => h (by simp [hm]))]

theorem splitSlash_append : ∀ (x s : Str), '/' ∉ x → splitSlash (x ++ '/' :: s) = x :: splitSlash s
  | [], s, _ => by simp [splitSlash]
  | c :: x, s, h => by
    rw [List.cons_append, splitSlash, if_neg (fun hc => h (by simp [hc])),
      splitSlash_append x s (fun hm => h (by simp [hm]))]

theorem splitSlash_intercalate : ∀ xs : List Str, xs ≠ [] → (∀ x ∈ xs, '/' ∉ x) →
    splitSlash (List.intercalate ['/'] xs) = xs
  | [], h, _ => absurd rfl h
  | [x], _, h => by
    simp only [List.intercalate_singleton]
    exact splitSlash_word x (h x (by simp))
  | x :: y :: ys, _, h => by
    rw [List.intercalate_cons_cons]
    have : x ++ ['/'] ++ List.intercalate ['/'] (y :: ys)
        = x ++ '/' :: List.intercalate ['/'] (y :: ys) := by simp
    rw [this, splitSlash_append x _ (h x (by simp)),
      splitSlash_intercalate (y :: ys) (by simp) (fun z hz => h z (by simp [hz]))]

theorem leads_iff (here : List Str) (p : Str) (there : List Str) :
    Leads here p there ↔ there = cleanRooted here (splitSlash p) := by
  constructor
  · rintro ⟨xs, h1, h2, rfl, h3⟩
    rw [splitSlash_intercalate xs h1 h2]; exact steps_eq h3
  · rintro rfl
    exact ⟨_, splitSlash_ne p, splitSlash_slash p, intercalate_splitSlash p, steps_cleanRooted _ _⟩

theorem fileIn_iff (cwd : List Str) (dir name : Str) (f : List Str) :
    FileIn cwd dir name f ↔ f = fullPath cwd dir name := by
  have h : ∀ d, Leads (if ['/'] <+: dir then [] else cwd) dir d ↔
      d = (match dir with
        | '/' :: _ => cleanRooted [] (splitSlash dir)
        | _ => cleanRooted cwd (splitSlash dir)) := by
    intro d
    rw [leads_iff]
    cases dir with
    | nil => simp
    | cons c dir =>
      by_cases hc : c = '/'
      · subst hc; simp
      · have : ¬ ['/'] <+: c :: dir := by
          rintro ⟨t, ht⟩
          simp at ht
          exact hc ht.1.symm
        rw [if_neg this]
        split
        · rename_i hh; simp at hh; exact absurd hh.1 hc
        · rfl
  unfold FileIn fullPath
  constructor
  · rintro ⟨d, hd, rfl⟩
    rw [(h d).1 hd]; rfl
  · rintro rfl
    exact ⟨_, (h _).2 rfl, rfl⟩

end Aql
