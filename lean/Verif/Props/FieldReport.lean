import Verif.Spec.FieldReport
import Verif.Props.Sharp
import Verif.Proofs.JsonFlat
import Mathlib.Data.List.Lex
import Mathlib.Data.Char
/-!
Properties C92 and C93: the report about the values of a field, and the texts of the examples.
-/

namespace Aql

open Spec

variable (E : Env)

/-! ### C93 -/

theorem keyTexts_eq (ms : List (Str × Json)) (n : Nat) (hn : n ≤ 10) :
    keyTexts E n ms = (if n > 0 ∧ readableKeys E ms ≠ [] then [','] else []) ++
      [','].intercalate (((readableKeys E ms).take (11 - n)).map (namedKey E)) := by
  induction ms generalizing n with
  | nil => simp [keyTexts, readableKeys]
  | cons m ms ih =>
    obtain ⟨raw, v⟩ := m
    unfold keyTexts readableKeys
    cases h : E.unescape raw with
    | none => simp
    | some k =>
      have hk : ∀ c t : Str, c ++ "\"".toList ++ (match E.unescape k with
          | none => "<invalid key>".toList
          | some k => k) ++ "\"".toList ++ t = c ++ (namedKey E k ++ t) := by
        intro c t
        unfold namedKey
        cases E.unescape k <;> simp
      refine (hk _ _).trans ?_
      obtain ⟨j, hj⟩ : ∃ j, 11 - n = j + 1 := ⟨10 - n, by omega⟩
      simp only [Option.elim]
      rw [hj, List.take_succ_cons, List.map_cons]
      have h1 : (if n > 0 then ",".toList else []) =
          (if n > 0 ∧ k :: readableKeys E ms ≠ [] then [','] else []) := by simp
      refine congrArg₂ _ h1 ?_
      by_cases h10 : n + 1 > 10
      · rw [if_pos h10]
        have : j = 0 := by omega
        subst this
        simp
      · rw [if_neg h10, ih (n + 1) (by omega)]
        have : 11 - (n + 1) = j := by omega
        rw [this]
        cases hr : readableKeys E ms with
        | nil => simp
        | cons a as =>
          obtain ⟨i, rfl⟩ : ∃ i, j = i + 1 := ⟨j - 1, by omega⟩
          simp [List.take_succ_cons, List.intercalate]

theorem exampleText_eq (v : Json) : exampleText E v = exampleOf E v := by
  cases v with
  | str raw =>
    dsimp only [exampleText, exampleOf]
    generalize E.unescape raw = o
    match o with
    | none => exact if_neg (show ¬ "invalid string".toList.length = 0 by decide)
    | some [] => exact if_pos (show ([] : Str).length = 0 from rfl)
    | some (c :: s) => exact if_neg (show ¬ (c :: s).length = 0 by simp)
  | obj ms =>
    unfold exampleText exampleOf
    have h := keyTexts_eq E ms 0 (by omega)
    rw [if_neg (fun hh => absurd hh.1 (by omega)), List.nil_append] at h
    exact congrArg (fun t => "<object with keys: ".toList ++ t ++ ">".toList) h
  | _ => rfl

/-- **C93.** The example of a string is its meaning; a string that cannot be unescaped and the empty string
have texts of their own. The example of a number is its spelling. -/
theorem C93_scalar_example (raw t : Str) :
    (E.unescape raw = some t → t ≠ [] → exampleText E (.str raw) = t) ∧
    (E.unescape raw = some [] → exampleText E (.str raw) = "empty string".toList) ∧
    (E.unescape raw = none → exampleText E (.str raw) = "invalid string".toList) ∧
    exampleText E (.num raw) = raw := by
  rw [exampleText_eq, exampleText_eq]
  refine ⟨fun h ht => ?_, fun h => ?_, fun h => ?_, rfl⟩
  · cases t with
    | nil => exact absurd rfl ht
    | cons c t => dsimp only [exampleOf]; rw [h]
  · dsimp only [exampleOf]; rw [h]
  · dsimp only [exampleOf]; rw [h]

/-- **C93, exactly.** The example of an object names the first eleven of its keys (up to the first that cannot
be unescaped), each of them unescaped twice. -/
theorem C93_object_exact (ms : List (Str × Json)) :
    exampleText E (.obj ms) = "<object with keys: ".toList ++
      [','].intercalate (((readableKeys E ms).take 11).map (namedKey E)) ++ ['>'] :=
  exampleText_eq E _

/-- **C93, partial.** The example of an object with at most ten keys, whose unescaped texts contain nothing more
to be unescaped, names all of them. Missing from the full statement: more keys and other keys, for
which it is false (`C93_object_refuted`). -/
theorem C93_object_partial (ms : List (Str × Json)) (keys : List Str) (hl : ms.length ≤ 10)
    (hk : ms.map (fun m => E.unescape m.1) = keys.map some) (h2 : ∀ k ∈ keys, E.unescape k = some k) :
    exampleText E (.obj ms) =
      "<object with keys: ".toList ++ [','].intercalate (keys.map fun k => '"' :: (k ++ ['"'])) ++ ['>'] := by
  have hr : readableKeys E ms = keys := by
    clear hl h2
    induction ms generalizing keys with
    | nil => cases keys <;> simp_all [readableKeys]
    | cons m ms ih =>
      cases keys with
      | nil => simp at hk
      | cons k keys =>
        rw [List.map_cons, List.map_cons, List.cons.injEq] at hk
        obtain ⟨raw, v⟩ := m
        rw [readableKeys, hk.1, ih keys hk.2]
        rfl
  rw [C93_object_exact, hr, List.take_of_length_le]
  · congr 3
    apply List.map_congr_left
    intro k hkk
    unfold namedKey
    rw [h2 k hkk]
    rfl
  · have := congrArg List.length hk
    simp only [List.length_map] at this
    omega

/-- An unescaping that knows the escape of a backslash. -/
def backslashEnv : Env := { testEnv with
  unescape := fun s => if s = "a\\\\d".toList then some "a\\d".toList else if '\\' ∈ s then none else some s }

/-- **C93, refuted.** Eleven keys of twelve are named, and the key `a\d` is called invalid. -/
theorem C93_object_refuted :
    exampleText testEnv (.obj ((List.range 12).map fun i => ([Char.ofNat (97 + i)], .null))) =
      "<object with keys: \"a\",\"b\",\"c\",\"d\",\"e\",\"f\",\"g\",\"h\",\"i\",\"j\",\"k\">".toList ∧
    exampleText backslashEnv (.obj [("a\\\\d".toList, .null)]) = "<object with keys: \"<invalid key>\">".toList := by
  constructor <;> decide +kernel

example : exampleText testEnv (.obj [("id".toList, .num "1".toList), ("name".toList, .str [])]) =
    "<object with keys: \"id\",\"name\">".toList := by decide +kernel

/-! ### C92 -/

/-- The kinds in the order of field_stats.go:29-43. -/
def kindOrder : List (ValueKind × Bool) :=
  [(.string, false), (.string, true), (.number, false), (.number, true), (.object, false), (.object, true),
   (.boolean, false), (.boolean, true), (.array, false), (.array, true), (.null, false), (.null, true)]

theorem kindOrder_get (b : Bool) (v : Json) : kindOrder[fieldKind b v]? = some (valueKind v, b) := by
  cases v <;> cases b <;> rfl

/-- What is stored about one kind after the marked values `ms`, with an example list or without. -/
def encOf (lists : Bool) (ms : List Marked) (y : ValueKind × Bool) : Encountered :=
  ⟨(ofKind y ms).length, 0,
    if lists then some (ExampleList.after ((sampledValues y ms).map (exampleOf E))) else none⟩

/-- Statistics for the marked values `ms` after `n` samples. -/
def statsOf (lists : Bool) (x : Option (List Str)) (n : Nat) (ms : List Marked) : FieldStats :=
  ⟨x, n, kindOrder.map (encOf E lists ms)⟩

theorem map_set_of {α β : Type} (l : List α) (f g : α → β) (k : Nat) (a : α) (hl : l.Nodup) (hk : l[k]? = some a)
    (h : ∀ y, y ≠ a → f y = g y) : (l.map f).set k (g a) = l.map g := by
  apply List.ext_getElem?
  intro i
  rw [List.getElem?_set]
  have hk' : k < l.length := (List.getElem?_eq_some_iff.1 hk).1
  split
  · next hi =>
    subst hi
    have : l[k] = a := (List.getElem?_eq_some_iff.1 hk).2
    simp [hk', this]
  · next hi =>
    rw [List.getElem?_map, List.getElem?_map]
    cases hy : l[i]? with
    | none => rfl
    | some y =>
      simp only [Option.map_some, Option.some.injEq]
      apply h
      rintro rfl
      exact hi (List.Nodup.getElem_inj_iff hl |>.1 (Option.some.inj (by
        rw [← List.getElem?_eq_getElem hk', ← List.getElem?_eq_getElem (List.getElem?_eq_some_iff.1 hy).1, hk, hy])))

theorem ofKind_snoc (x : ValueKind × Bool) (ms : List Marked) (m : Marked) :
    ofKind x (ms ++ [m]) = ofKind x ms ++ if (valueKind m.value, m.inArray) = x then [m] else [] := by
  unfold ofKind
  rw [List.filter_append]
  split <;> simp_all

instance (v : Json) : Decidable (KeepsExample v) := by
  cases v <;> simp only [KeepsExample] <;> infer_instance

theorem sampledValues_snoc (x : ValueKind × Bool) (ms : List Marked) (m : Marked) :
    sampledValues x (ms ++ [m]) = sampledValues x ms ++
      if (valueKind m.value, m.inArray) = x ∧ KeepsExample m.value ∧ m.sample % 1000 = 0 then [m.value] else [] := by
  have hk : (valueKind m.value = .number ∨ valueKind m.value = .object ∨ valueKind m.value = .string) ↔
      KeepsExample m.value := by
    cases m.value <;> simp [valueKind, KeepsExample]
  unfold sampledValues
  rw [ofKind_snoc, List.filter_append, List.map_append]
  congr 1
  by_cases h : (valueKind m.value, m.inArray) = x
  · subst h
    rw [if_pos rfl]
    by_cases h2 : KeepsExample m.value ∧ m.sample % 1000 = 0 <;>
      simp [hk, h2]
  · rw [if_neg h, if_neg (fun hh => h hh.1)]
    rfl

theorem encOf_other {lists : Bool} {ms : List Marked} {m : Marked} {y : ValueKind × Bool}
    (h : y ≠ (valueKind m.value, m.inArray)) : encOf E lists ms y = encOf E lists (ms ++ [m]) y := by
  have h1 := ofKind_snoc y ms m
  rw [if_neg (fun hh => h hh.symm), List.append_nil] at h1
  have h2 := sampledValues_snoc y ms m
  rw [if_neg (fun hh => h hh.1.symm), List.append_nil] at h2
  unfold encOf
  rw [h1, h2]

theorem statsOf_set {lists : Bool} {x : Option (List Str)} {n : Nat} {ms : List Marked} {b : Bool} {v : Json}
    {e : Encountered} (he : e = encOf E lists (ms ++ [⟨v, b, n⟩]) (valueKind v, b)) :
    ({ statsOf E lists x n ms with types := (statsOf E lists x n ms).types.set (fieldKind b v) e } : FieldStats) =
      statsOf E lists x n (ms ++ [⟨v, b, n⟩]) := by
  subst he
  have := map_set_of kindOrder (encOf E lists ms) (encOf E lists (ms ++ [⟨v, b, n⟩])) _ _
    (by decide) (kindOrder_get b v) (fun y hy => encOf_other E hy)
  exact congrArg (FieldStats.mk x n) this

theorem encOf_seen (lists : Bool) (ms : List Marked) (m : Marked) :
    (encOf E lists (ms ++ [m]) (valueKind m.value, m.inArray)).seen =
      (encOf E lists ms (valueKind m.value, m.inArray)).seen + 1 := by
  unfold encOf
  dsimp only
  rw [ofKind_snoc, if_pos rfl, List.length_append, List.length_singleton]

theorem markOne_statsOf (lists : Bool) (x : Option (List Str)) (n : Nat) (ms : List Marked) (b : Bool) (v : Json) :
    (statsOf E lists x n ms).markOne b v (exampleText E v) =
      if lists = false ∧ KeepsExample v ∧ n % 1000 = 0 then .error .nilDeref
      else .ok (statsOf E lists x n (ms ++ [⟨v, b, n⟩])) := by
  have hk := kindOrder_get b v
  have hkk := keepsExample_iff b v
  unfold FieldStats.markOne
  dsimp only
  have ht : (statsOf E lists x n ms).types[fieldKind b v]? = some (encOf E lists ms (valueKind v, b)) := by
    simp [statsOf, hk]
  rw [ht]
  dsimp only
  have hseen := encOf_seen E lists ms ⟨v, b, n⟩
  by_cases h : fieldKind b v < 6 ∧ n % 1000 = 0
  · rw [if_pos (show _ ∧ (statsOf E lists x n ms).sampled % 1000 = 0 from h)]
    have hs := sampledValues_snoc (valueKind v, b) ms ⟨v, b, n⟩
    rw [if_pos ⟨rfl, hkk.2 h.1, h.2⟩] at hs
    cases lists with
    | false => rw [if_pos ⟨rfl, hkk.2 h.1, h.2⟩]; rfl
    | true =>
      rw [if_neg (by simp)]
      dsimp only [encOf, if_true]
      refine congrArg Except.ok (statsOf_set E ?_)
      dsimp only [encOf, if_true] at hseen ⊢
      rw [hseen, hs, List.map_append, List.map_singleton, after_snoc, exampleText_eq]
      rfl
  · rw [if_neg (show ¬ (_ ∧ (statsOf E lists x n ms).sampled % 1000 = 0) from h),
      if_neg (fun hh => h ⟨hkk.1 hh.2.1, hh.2.2⟩)]
    have hs := sampledValues_snoc (valueKind v, b) ms ⟨v, b, n⟩
    rw [if_neg (fun hh => h ⟨hkk.1 hh.2.1, hh.2.2⟩), List.append_nil] at hs
    refine congrArg Except.ok (statsOf_set E ?_)
    unfold encOf at hseen ⊢
    dsimp only at hseen ⊢
    rw [hseen, hs]

theorem mark_statsOf (x : Option (List Str)) (n : Nat) (ms : List Marked) (vs : List Json) (i : Int) (b : Bool) :
    (statsOf E true x n ms).mark E vs i b = .ok (statsOf E true x (n + 1) (ms ++ vs.map fun v => ⟨v, b, n + 1⟩)) := by
  unfold FieldStats.mark
  change List.foldlM _ (statsOf E true x (n + 1) ms) vs = _
  induction vs generalizing ms with
  | nil => simp; rfl
  | cons v vs ih =>
    rw [List.foldlM_cons, markOne_statsOf, if_neg (by simp)]
    change List.foldlM _ _ vs = _
    rw [ih, List.map_cons, List.append_assoc]
    rfl

theorem markAll_statsOf (x : Option (List Str)) (samples : List (List Json × Int × Bool)) (n : Nat)
    (ms : List Marked) :
    markAll E (statsOf E true x n ms) samples =
      .ok (statsOf E true x (n + samples.length) (ms ++ markedFrom (n + 1) samples)) := by
  induction samples generalizing n ms with
  | nil => simp [markAll, markedFrom]; rfl
  | cons s ss ih =>
    obtain ⟨vs, i, b⟩ := s
    unfold markAll at *
    rw [List.foldlM_cons, mark_statsOf]
    change List.foldlM _ _ ss = _
    rw [ih, markedFrom, List.append_assoc, List.length_cons]
    congr 2
    omega

theorem mark_bareOf {x : Option (List Str)} {n : Nat} {ms : List Marked} {vs : List Json} {i : Int} {b : Bool}
    {fs : FieldStats} (h : (statsOf E false x n ms).mark E vs i b = .ok fs) :
    fs = statsOf E false x (n + 1) (ms ++ vs.map fun v => ⟨v, b, n + 1⟩) := by
  unfold FieldStats.mark at h
  change List.foldlM _ (statsOf E false x (n + 1) ms) vs = _ at h
  induction vs generalizing ms with
  | nil =>
    have : statsOf E false x (n + 1) ms = fs := Except.ok.inj h
    simp [← this]
  | cons v vs ih =>
    rw [List.foldlM_cons, markOne_statsOf] at h
    split at h
    · cases h
    · have := ih h
      rw [this, List.map_cons, List.append_assoc]
      rfl

theorem markAll_bareOf {x : Option (List Str)} {samples : List (List Json × Int × Bool)} {n : Nat}
    {ms : List Marked} {fs : FieldStats} (h : markAll E (statsOf E false x n ms) samples = .ok fs) :
    fs = statsOf E false x (n + samples.length) (ms ++ markedFrom (n + 1) samples) := by
  induction samples generalizing n ms with
  | nil =>
    have : statsOf E false x n ms = fs := Except.ok.inj h
    simp [← this, markedFrom]
  | cons s ss ih =>
    obtain ⟨vs, i, b⟩ := s
    unfold markAll at *
    rw [List.foldlM_cons] at h
    cases h1 : (statsOf E false x n ms).mark E vs i b with
    | error e => rw [h1] at h; cases h
    | ok f1 =>
      rw [h1, mark_bareOf E h1] at h
      rw [ih h, markedFrom, List.append_assoc, List.length_cons]
      congr 1
      omega

/-! The text -/

section sorting
variable {α : Type}

theorem ins_perm (x : Str × α) (l : List (Str × α)) : (sortKeys.ins x l).Perm (x :: l) := by
  induction l with
  | nil => exact .refl _
  | cons y ys ih =>
    unfold sortKeys.ins
    split
    · exact .refl _
    · exact (ih.cons y).trans (.swap x y ys)

theorem sortKeys_perm (l : List (Str × α)) : (sortKeys l).Perm l := by
  induction l with
  | nil => exact .refl _
  | cons x xs ih => exact (ins_perm x _).trans (ih.cons x)

theorem ins_sorted (x : Str × α) (l : List (Str × α)) (hl : l.Pairwise fun a b => a.1 < b.1)
    (hx : ∀ y ∈ l, x.1 ≠ y.1) : (sortKeys.ins x l).Pairwise fun a b => a.1 < b.1 := by
  induction l with
  | nil => simp [sortKeys.ins]
  | cons y ys ih =>
    unfold sortKeys.ins
    rw [List.pairwise_cons] at hl
    split
    · next h =>
      rw [List.pairwise_cons, List.pairwise_cons]
      refine ⟨fun z hz => ?_, hl⟩
      rcases List.mem_cons.1 hz with rfl | hz
      · exact h
      · exact lt_trans h (hl.1 z hz)
    · next h =>
      rw [List.pairwise_cons]
      refine ⟨fun z hz => ?_, ih hl.2 fun z hz => hx z (by simp [hz])⟩
      rcases List.mem_cons.1 ((ins_perm x ys).mem_iff.1 hz) with rfl | hz
      · exact lt_of_le_of_ne (not_lt.1 h) fun he => hx y (by simp) he.symm
      · exact hl.1 z hz

theorem sortKeys_sorted (l : List (Str × α)) (hl : l.Pairwise fun a b => a.1 ≠ b.1) :
    (sortKeys l).Pairwise fun a b => a.1 < b.1 := by
  induction l with
  | nil => exact .nil
  | cons x xs ih =>
    rw [List.pairwise_cons] at hl
    exact ins_sorted x _ (ih hl.2) fun y hy => hl.1 y ((sortKeys_perm xs).mem_iff.1 hy)

/-- Sorting gives the sorted list with the same members. -/
theorem sortKeys_eq {l l' : List (Str × α)} (hp : l.Perm l') (hs : l'.Pairwise fun a b => a.1 < b.1) :
    sortKeys l = l' := by
  have hd : l.Pairwise fun a b => a.1 ≠ b.1 :=
    (hp.pairwise_iff (fun h => Ne.symm h)).2 (hs.imp fun h => ne_of_lt h)
  exact List.Perm.eq_of_pairwise (fun a b _ _ h h' => absurd h' (lt_asymm h)) (sortKeys_sorted l hd) hs
    ((sortKeys_perm l).trans hp)

end sorting

theorem sort_kind (a b c : JOut) : sortKeys [("times_seen".toList, a), ("times_matched".toList, b),
    ("examples".toList, c)] = [("examples".toList, c), ("times_matched".toList, b), ("times_seen".toList, a)] := by
  refine sortKeys_eq (List.reverse_perm [("examples".toList, c), ("times_matched".toList, b), ("times_seen".toList, a)]) ?_
  have h1 : "examples".toList < "times_matched".toList := by decide
  have h2 : "examples".toList < "times_seen".toList := by decide
  have h3 : "times_matched".toList < "times_seen".toList := by decide
  rw [List.pairwise_cons, List.pairwise_cons, List.pairwise_cons]
  refine ⟨fun z hz => ?_, fun z hz => ?_, fun z hz => (by cases hz), .nil⟩
  · rcases List.mem_cons.1 hz with rfl | hz
    · exact h1
    · rcases List.mem_cons.1 hz with rfl | hz
      · exact h2
      · cases hz
  · rcases List.mem_cons.1 hz with rfl | hz
    · exact h3
    · cases hz

theorem ring_get (xs : List Str) (h : ∀ x ∈ xs, x ≠ []) : (ExampleList.after xs).get = ringShown xs := by
  unfold ringShown
  split
  · next hl => exact C55_short_refuted xs hl
  · next hl =>
    have := C55_last_ten_partial (xs.take (xs.length - 10)) (xs.drop (xs.length - 10)) (by simp; omega)
      (fun x hx => h x (List.mem_of_mem_drop hx))
    rw [List.take_append_drop] at this
    rw [this, List.length_take, show min (xs.length - 10) xs.length % 10 = xs.length % 10 by omega]

theorem exampleOf_ne {v : Json} (hk : KeepsExample v) (hv : v ≠ .num []) : exampleOf E v ≠ [] := by
  cases v with
  | num raw => exact fun h => hv (congrArg Json.num h)
  | str raw =>
    dsimp only [exampleOf]
    generalize E.unescape raw = o
    match o with
    | none => exact fun h => absurd (congrArg List.head? h) (by decide)
    | some [] => exact fun h => absurd (congrArg List.head? h) (by decide)
    | some (c :: s) => exact List.cons_ne_nil c s
  | obj ms =>
    dsimp only [exampleOf]
    rw [List.append_assoc]
    intro h
    exact absurd (List.append_eq_nil_iff.1 h).1 (by decide)
  | _ => exact absurd hk (by simp [KeepsExample])

theorem sampledValues_keeps {x : ValueKind × Bool} {ms : List Marked} {v : Json} (h : v ∈ sampledValues x ms) :
    KeepsExample v ∧ ∃ m ∈ ms, m.value = v := by
  unfold sampledValues ofKind at h
  simp only [List.mem_map, List.mem_filter, decide_eq_true_eq] at h
  obtain ⟨m, ⟨⟨hm, hx⟩, hk, -⟩, rfl⟩ := h
  refine ⟨?_, m, hm, rfl⟩
  subst hx
  revert hk
  cases m.value <;> simp [valueKind, KeepsExample]

theorem flatMapGo_error {α β : Type} {f : α → GoM (List β)} {e : GoPanic} {l : List α}
    (h : ∀ x ∈ l, f x = .error e ∨ f x = .ok []) (hx : ∃ x ∈ l, f x = .error e) : flatMapGo f l = .error e := by
  induction l with
  | nil => obtain ⟨x, hx, -⟩ := hx; cases hx
  | cons y ys ih =>
    unfold flatMapGo
    rcases h y (by simp) with h1 | h1
    · rw [h1]
    · rw [h1, ih (fun z hz => h z (by simp [hz]))]
      obtain ⟨x, hx, he⟩ := hx
      rcases List.mem_cons.1 hx with rfl | hx
      · rw [h1] at he; cases he
      · exact ⟨x, hx, he⟩

theorem mem_ofKind {ms : List Marked} {m : Marked} (h : m ∈ ms) : ofKind (valueKind m.value, m.inArray) ms ≠ [] := by
  intro hn
  have : m ∈ ofKind (valueKind m.value, m.inArray) ms := by
    simp [ofKind, h]
  rw [hn] at this
  cases this

theorem zip_map_kinds (f : ValueKind × Bool → Encountered) :
    (kindOrder.map f).zip encounteredName = (kindOrder.zip encounteredName).map fun x => (f x.1, x.2) := by
  rw [List.zip_map_left]
  rfl

theorem names_perm : (kindOrder.zip encounteredName).Perm reportNames := by decide

theorem names_sorted : reportNames.Pairwise fun a b => a.2 < b.2 := by decide

/-- What is reported about one kind. -/
def kindReport (ms : List Marked) (x : (ValueKind × Bool) × Str) : Option (Str × JOut) :=
  if ofKind x.1 ms = [] then none
  else some (x.2, .obj [("examples".toList,
      .arr ((ringShown ((sampledValues x.1 ms).map (exampleOf E))).map .str)),
    ("times_matched".toList, .num 0), ("times_seen".toList, .num (ofKind x.1 ms).length)])

theorem encountered_statsOf (x : Option (List Str)) (n : Nat) (ms : List Marked)
    (hm : ∀ m ∈ ms, m.value ≠ .num []) :
    (statsOf E true x n ms).encountered = .ok ((kindOrder.zip encounteredName).filterMap (kindReport E ms)) := by
  unfold FieldStats.encountered statsOf
  dsimp only
  rw [zip_map_kinds]
  induction kindOrder.zip encounteredName with
  | nil => rfl
  | cons y ys ih =>
    rw [List.map_cons, flatMapGo, ih, List.filterMap_cons]
    unfold kindReport
    by_cases h : ofKind y.1 ms = []
    · rw [if_pos h, if_neg (by simp [encOf, h])]
      rfl
    · rw [if_neg h, if_pos (by simpa [encOf] using h)]
      have hr := ring_get ((sampledValues y.1 ms).map (exampleOf E)) (by
        intro t ht
        obtain ⟨v, hv, rfl⟩ := List.mem_map.1 ht
        obtain ⟨hk, m, hmm, rfl⟩ := sampledValues_keeps hv
        exact exampleOf_ne E hk (hm m hmm))
      simp only [encOf, if_true, hr, sort_kind]
      rfl

theorem encountered_bare (x : Option (List Str)) (n : Nat) (ms : List Marked) (h : ms ≠ []) :
    (statsOf E false x n ms).encountered = .error .nilDeref := by
  unfold FieldStats.encountered statsOf
  dsimp only
  rw [zip_map_kinds]
  apply flatMapGo_error
  · intro y hy
    obtain ⟨z, -, rfl⟩ := List.mem_map.1 hy
    by_cases hz : (encOf E false ms z.1).seen ≠ 0
    · rw [if_pos hz]
      exact .inl rfl
    · rw [if_neg hz]
      exact .inr rfl
  · obtain ⟨m, hm⟩ := List.exists_mem_of_ne_nil ms h
    have hk : ∃ name, ((valueKind m.value, m.inArray), name) ∈ kindOrder.zip encounteredName := by
      have : ∀ k b, ∃ name ∈ encounteredName, ((k, b), name) ∈ kindOrder.zip encounteredName := by
        intro k b; cases k <;> cases b <;> decide
      obtain ⟨name, -, h⟩ := this (valueKind m.value) m.inArray
      exact ⟨name, h⟩
    obtain ⟨name, hn⟩ := hk
    refine ⟨(encOf E false ms (valueKind m.value, m.inArray), name), List.mem_map.2 ⟨_, hn, rfl⟩, ?_⟩
    rw [if_pos]
    · rfl
    · simpa [encOf] using mem_ofKind hm

theorem sort_top (a b : JOut) (c : List (Str × JOut)) (hc : c = [] ∨ ∃ v, c = [("encountered".toList, v)]) :
    sortKeys ([("expecting".toList, a), ("times_seen".toList, b)] ++ c) =
      c ++ [("expecting".toList, a), ("times_seen".toList, b)] := by
  refine sortKeys_eq List.perm_append_comm ?_
  have h1 : "encountered".toList < "expecting".toList := by decide
  have h2 : "encountered".toList < "times_seen".toList := by decide
  have h3 : "expecting".toList < "times_seen".toList := by decide
  have h : ([("expecting".toList, a), ("times_seen".toList, b)] : List (Str × JOut)).Pairwise fun a b => a.1 < b.1 := by
    rw [List.pairwise_cons]
    refine ⟨fun z hz => ?_, List.pairwise_singleton _ _⟩
    rcases List.mem_cons.1 hz with rfl | hz
    · exact h3
    · cases hz
  rcases hc with rfl | ⟨v, rfl⟩
  · exact h
  · refine List.pairwise_cons.2 ⟨fun z hz => ?_, h⟩
    rcases List.mem_cons.1 hz with rfl | hz
    · exact h1
    · rcases List.mem_cons.1 hz with rfl | hz
      · exact h2
      · cases hz

theorem report_names_nil (ms : List Marked) :
    (kindOrder.zip encounteredName).filterMap (kindReport E ms) = [] ↔ ms = [] := by
  constructor
  · intro h
    by_contra hne
    obtain ⟨m, hm⟩ := List.exists_mem_of_ne_nil ms hne
    have : ∀ k b, ∃ name ∈ encounteredName, ((k, b), name) ∈ kindOrder.zip encounteredName := by
      intro k b; cases k <;> cases b <;> decide
    obtain ⟨name, -, hn⟩ := this (valueKind m.value) m.inArray
    have := (List.filterMap_eq_nil_iff.1 h) _ hn
    unfold kindReport at this
    rw [if_neg (mem_ofKind hm)] at this
    cases this
  · rintro rfl
    apply List.filterMap_eq_nil_iff.2
    intro y _
    unfold kindReport
    exact if_pos rfl

theorem json_statsOf (x : Option (List Str)) (samples : List (List Json × Int × Bool)) (lists : Bool)
    (hm : ∀ m ∈ markedFrom 1 samples, m.value ≠ .num []) (hl : lists = true ∨ markedFrom 1 samples = []) :
    (statsOf E lists x samples.length (markedFrom 1 samples)).json = .ok (fieldReport E x samples) := by
  have he : (statsOf E lists x samples.length (markedFrom 1 samples)).encountered =
      .ok ((kindOrder.zip encounteredName).filterMap (kindReport E (markedFrom 1 samples))) := by
    rcases hl with rfl | h
    · exact encountered_statsOf E x _ _ hm
    · rw [(report_names_nil E _).2 h, h]
      cases lists <;> rfl
  have hs : sortKeys ((kindOrder.zip encounteredName).filterMap (kindReport E (markedFrom 1 samples))) =
      reportNames.filterMap (kindReport E (markedFrom 1 samples)) := by
    refine sortKeys_eq (names_perm.filterMap _) ?_
    refine List.Pairwise.filterMap _ ?_ names_sorted
    intro a b hab u hu v hv
    unfold kindReport at hu hv
    split at hu
    · cases hu
    split at hv
    · cases hv
    cases hu; cases hv
    exact hab
  unfold FieldStats.json
  rw [he]
  dsimp only
  rw [hs]
  unfold fieldReport
  dsimp only
  congr 2
  have hlen : ((kindOrder.zip encounteredName).filterMap (kindReport E (markedFrom 1 samples))).length > 0 ↔
      ¬ markedFrom 1 samples = [] := by
    rw [← report_names_nil E, gt_iff_lt, List.length_pos_iff]
  by_cases h : markedFrom 1 samples = []
  · rw [if_neg (fun hh => hlen.1 hh h), if_pos h, sort_top _ _ _ (.inl rfl)]
    rfl
  · rw [if_pos (hlen.2 h), if_neg h, sort_top _ _ _ (.inr ⟨_, rfl⟩)]
    rfl

/-- Statistics with an example list for every kind, as the loop of `NewFieldStats` was to make them. -/
def readyFieldStats (x : Option (List Str)) : FieldStats :=
  ⟨x, 0, List.replicate 12 ⟨0, 0, some ExampleList.zero⟩⟩

/-- **C92, partial.** If the statistics have example lists, marking any samples succeeds, and `MarshalJson`
then gives a JSON text that says what the samples contain: for each kind that occurs, in alphabetical order,
the number of values and the examples; what was expected; and the number of samples. Missing from the full
statement: statistics made by `NewFieldStats` (`C92_report_refuted`, `C92_new_exact`). -/
theorem C92_report_partial (short : Bool) (x : Option (List Str)) (samples : List (List Json × Int × Bool))
    (hm : ∀ m ∈ markedFrom 1 samples, m.value ≠ .num []) :
    ∃ fs t, markAll E (readyFieldStats x) samples = .ok fs ∧ fs.marshalJson short = .ok t ∧
      readJson t = some (fieldReport E x samples) := by
  have h := markAll_statsOf E x samples 0 []
  have h0 : statsOf E true x 0 [] = readyFieldStats x := rfl
  rw [h0, Nat.zero_add, List.nil_append] at h
  refine ⟨_, (fieldReport E x samples).flat short, h, ?_, readJson_flat short _⟩
  unfold FieldStats.marshalJson
  rw [json_statsOf E x samples true hm (.inl rfl)]

/-- **C92, exactly.** Statistics made by `NewFieldStats` can be reported if and only if no value was marked;
otherwise `MarshalJson` panics with a nil pointer. -/
theorem C92_new_exact (short : Bool) (x : Option (List Str)) (samples : List (List Json × Int × Bool))
    (fs : FieldStats) (h : markAll E (newFieldStats x) samples = .ok fs) :
    ((∀ s ∈ samples, s.1 = []) → ∃ t, fs.marshalJson short = .ok t ∧ readJson t = some (fieldReport E x samples)) ∧
    ((∃ s ∈ samples, s.1 ≠ []) → fs.marshalJson short = .error .nilDeref) := by
  have h0 : newFieldStats x = statsOf E false x 0 [] := rfl
  rw [h0] at h
  have hfs := markAll_bareOf E h
  rw [Nat.zero_add, List.nil_append] at hfs
  have key : ∀ (ss : List (List Json × Int × Bool)) n, markedFrom n ss = [] ↔ ∀ s ∈ ss, s.1 = [] := by
    intro ss
    induction ss with
    | nil => simp [markedFrom]
    | cons s ss ih => intro n; simp [markedFrom, ih (n + 1)]
  subst hfs
  unfold FieldStats.marshalJson
  constructor
  · intro hs
    have hn := (key samples 1).2 hs
    rw [json_statsOf E x samples false (by rw [hn]; simp) (.inr hn)]
    exact ⟨_, rfl, readJson_flat short _⟩
  · rintro ⟨s, hs, hne⟩
    have hn : markedFrom 1 samples ≠ [] := fun hh => hne ((key samples 1).1 hh s hs)
    unfold FieldStats.json
    rw [encountered_bare E x _ _ hn]

/-- **C92, refuted.** One null is enough. -/
theorem C92_report_refuted (short : Bool) : ∃ fs, markAll E (newFieldStats none) [([.null], -1, false)] = .ok fs ∧
    fs.marshalJson short = .error .nilDeref := ⟨_, rfl, rfl⟩

-- two samples, strings and a null
example : (do
    let fs ← markAll testEnv (readyFieldStats (some ["string".toList]))
      [([.str "x".toList, .null, .str []], 0, false), ([.str []], -1, true)]
    fs.marshalJson true) = .ok ("{\"encountered\":{" ++
      "\"null\":{\"examples\":[],\"times_matched\":0,\"times_seen\":1}," ++
      "\"string\":{\"examples\":[],\"times_matched\":0,\"times_seen\":2}," ++
      "\"string (in array)\":{\"examples\":[],\"times_matched\":0,\"times_seen\":1}}," ++
      "\"expecting\":[\"string\"],\"times_seen\":2}").toList := by decide +kernel

end Aql
