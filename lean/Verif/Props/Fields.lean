import Verif.Model.FieldStats
import Verif.Model.Ast
import Mathlib.Data.List.Rotate
import Mathlib.Data.List.TakeWhile
import Mathlib.Data.List.Induction
import Mathlib.Tactic.IntervalCases
/-!
Properties C55 and C56: example lists and the printing of field paths.
-/

namespace Aql

/-! ### C55 -/

/-- The list after adding `xs`. -/
def ExampleList.after (xs : List Str) : ExampleList := xs.foldl ExampleList.add .zero

/-- The last ten of the texts added, padded at the front with empty texts. -/
def lastTen (xs : List Str) : List Str := (List.replicate 10 [] ++ xs).drop xs.length

theorem lastTen_length (xs : List Str) : (lastTen xs).length = 10 := by
  simp only [lastTen, List.length_drop, List.length_append, List.length_replicate]; omega

theorem lastTen_snoc (xs : List Str) (x : Str) : lastTen (xs ++ [x]) = (lastTen xs).drop 1 ++ [x] := by
  unfold lastTen
  rw [List.drop_drop, ← List.append_assoc, List.length_append, List.length_singleton,
    List.drop_append_of_le_length (by simp)]

theorem after_snoc (xs : List Str) (x : Str) :
    ExampleList.after (xs ++ [x]) = (ExampleList.after xs).add x := by
  simp [ExampleList.after]

theorem set_rotate (l : List Str) (x : Str) (i : Nat) (hl : l.length = 10) (hi : i < 10) :
    (l.rotate (9 - i)).set ((i + 1) % 10) x = (l.drop 1 ++ [x]).rotate (9 - (i + 1) % 10) := by
  match l, hl with
  | [a, b, c, d, e, f, g, h, k, m], _ =>
    interval_cases i <;> simp [List.rotate, List.set]

/-- **C55.** The state after any history: the position of the last write is the number of writes
modulo ten, and the slots hold the last ten texts, rotated. -/
theorem after_eq (xs : List Str) :
    ExampleList.after xs = ⟨(lastTen xs).rotate (9 - xs.length % 10), xs.length % 10⟩ := by
  induction xs using List.reverseRecOn with
  | nil => decide
  | append_singleton xs x ih =>
    rw [after_snoc, ih, lastTen_snoc, List.length_append, List.length_singleton]
    unfold ExampleList.add
    dsimp only
    rw [List.length_rotate, lastTen_length]
    have hi : (if xs.length % 10 + 1 = 10 then 0 else xs.length % 10 + 1) = (xs.length % 10 + 1) % 10 := by
      split <;> omega
    rw [hi, set_rotate _ _ _ (lastTen_length _) (Nat.mod_lt _ (by decide))]
    have h2 : (xs.length + 1) % 10 = (xs.length % 10 + 1) % 10 := by omega
    rw [h2]

/-- **C55.** As soon as ten or more non-empty texts were added, `Get` returns exactly the ten most
recent ones, in the order of a rotation. -/
theorem C55_last_ten_partial (old recent : List Str) (hn : recent.length = 10)
    (hne : ∀ x ∈ recent, x ≠ []) :
    (ExampleList.after (old ++ recent)).get = recent.rotate (9 - old.length % 10) := by
  have hl : lastTen (old ++ recent) = recent := by
    unfold lastTen
    rw [← List.append_assoc, List.length_append, hn, List.drop_append_of_le_length (by simp)]
    rw [List.drop_of_length_le (by simp), List.nil_append]
  rw [after_eq, hl, List.length_append, hn, Nat.add_mod_right]
  unfold ExampleList.get
  dsimp only
  refine List.takeWhile_eq_self_iff.2 fun x hx => ?_
  simpa using hne x (List.mem_rotate.1 hx)

/-- **C55 (exact).** After any history `Get` returns the ten most recent texts (empty ones standing for
those that were never added), rotated, up to the first empty one. -/
theorem C55_get_exact (xs : List Str) :
    (ExampleList.after xs).get =
      (((List.replicate 10 [] ++ xs).drop xs.length).rotate (9 - xs.length % 10)).takeWhile (· ≠ []) := by
  rw [after_eq]
  unfold ExampleList.get
  dsimp only
  congr 1
  funext x
  cases x <;> rfl

/-- **C55, refuted.** Fewer than ten texts: `Get` returns nothing at all. -/
theorem C55_short_refuted (xs : List Str) (h : xs.length < 10) : (ExampleList.after xs).get = [] := by
  rw [after_eq, Nat.mod_eq_of_lt h]
  unfold ExampleList.get
  dsimp only
  have h0 : ((lastTen xs).rotate (9 - xs.length)).head? = some [] := by
    rw [List.head?_rotate (by rw [lastTen_length]; omega)]
    unfold lastTen
    rw [List.getElem?_drop, List.getElem?_append_left (by simp; omega), List.getElem?_replicate]
    rw [if_pos (by omega)]
  cases hr : (lastTen xs).rotate (9 - xs.length) with
  | nil => rfl
  | cons y ys =>
    rw [hr] at h0
    simp only [List.head?_cons, Option.some.injEq] at h0
    subst h0
    simp

example : (ExampleList.after ((List.range 13).map fun i => [Char.ofNat (97 + i)])).get =
    ["j", "k", "l", "m", "d", "e", "f", "g", "h", "i"].map String.toList := by decide +kernel

/-! ### C58 -/

/-- Twelve kinds, none with an example list, as `NewFieldStats` leaves them. -/
def FieldStats.Bare (fs : FieldStats) : Prop :=
  fs.types.length = 12 ∧ ∀ e ∈ fs.types, e.examples = none

theorem fieldKind_lt (b : Bool) (v : Json) : fieldKind b v < 12 := by
  unfold fieldKind; cases v <;> cases b <;> simp

theorem markOne_ok {fs : FieldStats} {b : Bool} {v : Json} {ex : Str} (hb : fs.Bare)
    (h : fs.sampled % 1000 ≠ 0) :
    ∃ fs', fs.markOne b v ex = .ok fs' ∧ fs'.Bare ∧ fs'.sampled = fs.sampled := by
  have hk : fieldKind b v < fs.types.length := by rw [hb.1]; exact fieldKind_lt b v
  unfold FieldStats.markOne
  dsimp only
  rw [List.getElem?_eq_getElem hk]
  dsimp only
  rw [if_neg (by tauto)]
  refine ⟨_, rfl, ⟨by simp [hb.1], fun e he => ?_⟩, rfl⟩
  rcases List.mem_or_eq_of_mem_set he with h | rfl
  · exact hb.2 e h
  · have := hb.2 _ (List.getElem_mem hk)
    exact this

theorem mark_ok (E : Env) (b : Bool) (vs : List Json) {fs : FieldStats} (hb : fs.Bare)
    (h : fs.sampled % 1000 ≠ 0) :
    ∃ fs', vs.foldlM (fun fs v => fs.markOne b v (exampleText E v)) fs = (.ok fs' : GoM FieldStats) ∧
      fs'.Bare ∧ fs'.sampled = fs.sampled := by
  induction vs generalizing fs with
  | nil => exact ⟨fs, rfl, hb, rfl⟩
  | cons v vs ih =>
    obtain ⟨f1, e1, l1, s1⟩ := markOne_ok (b := b) (v := v) (ex := exampleText E v) hb h
    obtain ⟨f2, e2, l2, s2⟩ := ih l1 (by rw [s1]; exact h)
    refine ⟨f2, ?_, l2, by rw [s2, s1]⟩
    rw [List.foldlM_cons, e1]
    exact e2

/-- Marking any list of samples in turn: values, index of the match, whether in an array. -/
def markAll (E : Env) (fs : FieldStats) (samples : List (List Json × Int × Bool)) : GoM FieldStats :=
  samples.foldlM (fun fs s => fs.mark E s.1 s.2.1 s.2.2) fs

theorem markAll_ok (E : Env) (samples : List (List Json × Int × Bool)) {fs : FieldStats} (hb : fs.Bare)
    (h : fs.sampled + samples.length < 1000) :
    ∃ fs', markAll E fs samples = .ok fs' ∧ fs'.Bare ∧ fs'.sampled = fs.sampled + samples.length := by
  induction samples generalizing fs with
  | nil => exact ⟨fs, rfl, hb, rfl⟩
  | cons s ss ih =>
    rw [List.length_cons] at h
    obtain ⟨f1, e1, l1, s1⟩ := mark_ok E s.2.2 s.1 (fs := { fs with sampled := fs.sampled + 1 }) hb
      (by dsimp only; omega)
    dsimp only at s1
    obtain ⟨f2, e2, l2, s2⟩ := ih l1 (by rw [s1]; omega)
    refine ⟨f2, ?_, l2, by rw [s2, s1, List.length_cons]; omega⟩
    unfold markAll FieldStats.mark at *
    rw [List.foldlM_cons, e1]
    exact e2

theorem newFieldStats_bare (x : Option (List Str)) : (newFieldStats x).Bare := by
  refine ⟨by simp [newFieldStats], fun e he => ?_⟩
  rw [List.eq_of_mem_replicate he]

/-- **C58, partial.** The first 999 samples never panic, whatever values they contain. Missing from
the full statement: later samples, for which it is false (`C58_mark_refuted`). -/
theorem C58_mark_partial (E : Env) (x : Option (List Str)) (samples : List (List Json × Int × Bool)) (h : samples.length < 1000) :
    ∃ fs, markAll E (newFieldStats x) samples = .ok fs ∧ fs.sampled = samples.length := by
  obtain ⟨fs, h1, -, h2⟩ := markAll_ok E samples (newFieldStats_bare x)
    (by change 0 + _ < _; omega)
  exact ⟨fs, h1, by rw [h2]; exact Nat.zero_add _⟩

/-- **C58, refuted.** After any 999 samples, a sample that begins with a string, a number or an
object panics with a nil pointer. -/
theorem C58_mark_refuted (E : Env) (x : Option (List Str)) (samples : List (List Json × Int × Bool)) (h : samples.length = 999)
    (b : Bool) (i : Int) (v : Json) (vs : List Json)
    (hv : (∃ s, v = .str s) ∨ (∃ s, v = .num s) ∨ ∃ ms, v = .obj ms) :
    markAll E (newFieldStats x) (samples ++ [(v :: vs, i, b)]) = .error .nilDeref := by
  obtain ⟨fs, h1, hb, h2⟩ := markAll_ok E samples (newFieldStats_bare x)
    (by change 0 + _ < _; omega)
  have hs : fs.sampled = 999 := by rw [h2, h]; rfl
  have hlt : fieldKind b v < 6 := by
    rcases hv with ⟨s, rfl⟩ | ⟨s, rfl⟩ | ⟨s, rfl⟩ <;> cases b <;> simp [fieldKind]
  have hk : fieldKind b v < fs.types.length := by rw [hb.1]; omega
  have hm : ({ fs with sampled := fs.sampled + 1 } : FieldStats).markOne b v (exampleText E v)
      = .error .nilDeref := by
    unfold FieldStats.markOne
    dsimp only
    rw [List.getElem?_eq_getElem hk]
    dsimp only
    rw [if_pos ⟨hlt, by rw [hs]⟩, hb.2 _ (List.getElem_mem hk)]
  unfold markAll at *
  rw [List.foldlM_append, h1]
  change List.foldlM _ fs _ = _
  rw [List.foldlM_cons]
  unfold FieldStats.mark
  dsimp only
  rw [List.foldlM_cons, hm]
  rfl

example : (fun s : FieldStats => s.types.map Encountered.seen) <$>
    markAll testEnv (newFieldStats none) [([.str [], .num []], -1, false), ([.str []], 0, true)] =
    .ok [1, 1, 1, 0, 0, 0, 0, 0, 0, 0, 0, 0] := by
  rfl

/-! ### C56 -/

section
variable {E : Env}

theorem hexDigit_inj {a b : Nat} (ha : a < 16) (hb : b < 16) (h : hexDigit a = hexDigit b) : a = b := by
  interval_cases a <;> interval_cases b <;> first | rfl | exact absurd h (by decide)

theorem hexDigits_length (n v : Nat) : (hexDigits n v).length = n := by
  induction n generalizing v with
  | zero => rfl
  | succ n ih => simp [hexDigits, ih]

theorem hexDigits_inj {n a b : Nat} (ha : a < 16 ^ n) (hb : b < 16 ^ n)
    (h : hexDigits n a = hexDigits n b) : a = b := by
  induction n generalizing a b with
  | zero => simp only [pow_zero] at ha hb; omega
  | succ n ih =>
    rw [pow_succ] at ha hb
    have h' := List.append_inj h (by rw [hexDigits_length, hexDigits_length])
    have h1 := ih (a := a / 16) (b := b / 16) (by omega) (by omega) h'.1
    have h2 := hexDigit_inj (Nat.mod_lt _ (by decide)) (Nat.mod_lt _ (by decide))
      (List.cons.inj h'.2).1
    omega

/-- The forms an escaped character can take. -/
inductive Quoted (c : Char) : Str → Prop
  | plain : c ≠ '"' → c ≠ '\\' → Quoted c [c]
  | short (k : Char) : k ∈ ['"', '\\', 'a', 'b', 'f', 'n', 'r', 't', 'v'] →
      c.toNat = (match k with
        | '"' => 34 | '\\' => 92 | 'a' => 7 | 'b' => 8 | 'f' => 12 | 'n' => 10 | 'r' => 13
        | 't' => 9 | _ => 11) → Quoted c ['\\', k]
  | hex (k : Char) (n : Nat) : (k, n) ∈ [('x', 2), ('u', 4), ('U', 8)] → c.toNat < 16 ^ n →
      Quoted c ('\\' :: k :: hexDigits n c.toNat)

theorem char_lt (c : Char) : c.toNat < 16 ^ 8 := by
  have h := c.val.toNat_lt
  rw [Char.toNat]
  omega

theorem quoteChar_quoted (c : Char) : Quoted c (quoteChar E c) := by
  unfold quoteChar
  by_cases h1 : c = '"'
  · rw [if_pos h1]; exact .short '"' (by decide) (by rw [h1]; decide)
  rw [if_neg h1]
  by_cases h2 : c = '\\'
  · rw [if_pos h2]; exact .short '\\' (by decide) (by rw [h2]; decide)
  rw [if_neg h2]
  by_cases h3 : c.val = 7
  · rw [if_pos h3]; exact .short 'a' (by decide) (by rw [Char.toNat, h3]; decide)
  rw [if_neg h3]
  by_cases h4 : c.val = 8
  · rw [if_pos h4]; exact .short 'b' (by decide) (by rw [Char.toNat, h4]; decide)
  rw [if_neg h4]
  by_cases h5 : c.val = 12
  · rw [if_pos h5]; exact .short 'f' (by decide) (by rw [Char.toNat, h5]; decide)
  rw [if_neg h5]
  by_cases h6 : c.val = 10
  · rw [if_pos h6]; exact .short 'n' (by decide) (by rw [Char.toNat, h6]; decide)
  rw [if_neg h6]
  by_cases h7 : c.val = 13
  · rw [if_pos h7]; exact .short 'r' (by decide) (by rw [Char.toNat, h7]; decide)
  rw [if_neg h7]
  by_cases h8 : c.val = 9
  · rw [if_pos h8]; exact .short 't' (by decide) (by rw [Char.toNat, h8]; decide)
  rw [if_neg h8]
  by_cases h9 : c.val = 11
  · rw [if_pos h9]; exact .short 'v' (by decide) (by rw [Char.toNat, h9]; decide)
  rw [if_neg h9]
  by_cases h10 : c.val < 32 ∨ c.val = 127
  · rw [if_pos h10]
    refine .hex 'x' 2 (by decide) ?_
    rcases h10 with h | h
    · rw [UInt32.lt_iff_toNat_lt] at h
      rw [Char.toNat]
      have : (32 : UInt32).toNat = 32 := by decide
      omega
    · rw [Char.toNat, h]; decide
  rw [if_neg h10]
  by_cases h11 : c.val < 128
  · rw [if_pos h11]; exact .plain h1 h2
  rw [if_neg h11]
  by_cases h12 : E.isPrint c = true
  · rw [if_pos h12]; exact .plain h1 h2
  rw [if_neg h12]
  by_cases h13 : c.val < 0x10000
  · rw [if_pos h13]
    refine .hex 'u' 4 (by decide) ?_
    rw [UInt32.lt_iff_toNat_lt] at h13
    rw [Char.toNat]
    have : (0x10000 : UInt32).toNat = 16 ^ 4 := by decide
    omega
  rw [if_neg h13]
  exact .hex 'U' 8 (by decide) (char_lt c)

/-- Escaped characters form a prefix code. -/
theorem Quoted.prefix_free {c d : Char} {s t x y : Str} (hc : Quoted c s) (hd : Quoted d t)
    (h : s ++ x = t ++ y) : c = d ∧ x = y := by
  cases hc with
  | plain c1 c2 =>
    cases hd with
    | plain d1 d2 => simpa using h
    | short k hk hv => simp at h; exact absurd h.1 c2
    | hex k n hk hv => simp at h; exact absurd h.1 c2
  | short k hk hv =>
    cases hd with
    | plain d1 d2 => simp at h; exact absurd h.1.symm d2
    | short k' hk' hv' =>
      simp only [List.cons_append, List.nil_append, List.cons.injEq, true_and] at h
      obtain ⟨rfl, rfl⟩ := h
      exact ⟨Char.toNat_inj.1 (hv.trans hv'.symm), rfl⟩
    | hex k' n hk' hv' =>
      simp only [List.cons_append, List.nil_append, List.cons.injEq, true_and] at h
      obtain ⟨rfl, -⟩ := h
      exfalso
      simp only [List.mem_cons, Prod.mk.injEq, List.not_mem_nil, or_false] at hk'
      rcases hk' with ⟨rfl, -⟩ | ⟨rfl, -⟩ | ⟨rfl, -⟩ <;> exact absurd hk (by decide)
  | hex k n hk hv =>
    cases hd with
    | plain d1 d2 => simp at h; exact absurd h.1.symm d2
    | short k' hk' hv' =>
      simp only [List.cons_append, List.nil_append, List.cons.injEq, true_and] at h
      obtain ⟨rfl, -⟩ := h
      exfalso
      simp only [List.mem_cons, Prod.mk.injEq, List.not_mem_nil, or_false] at hk
      rcases hk with ⟨rfl, -⟩ | ⟨rfl, -⟩ | ⟨rfl, -⟩ <;> exact absurd hk' (by decide)
    | hex k' n' hk' hv' =>
      simp only [List.cons_append, List.cons.injEq, true_and] at h
      obtain ⟨rfl, h⟩ := h
      have hn : n = n' := by
        simp only [List.mem_cons, Prod.mk.injEq, List.not_mem_nil, or_false] at hk hk'
        rcases hk with ⟨rfl, rfl⟩ | ⟨rfl, rfl⟩ | ⟨rfl, rfl⟩ <;>
          rcases hk' with ⟨h1, rfl⟩ | ⟨h1, rfl⟩ | ⟨h1, rfl⟩ <;>
            first | rfl | exact absurd h1 (by decide)
      subst hn
      have h' := List.append_inj h (by rw [hexDigits_length, hexDigits_length])
      exact ⟨Char.toNat_inj.1 (hexDigits_inj hv hv' h'.1), h'.2⟩

theorem Quoted.ne_quote {c : Char} {s x : Str} (hc : Quoted c s) : s ++ x ≠ '"' :: y := by
  cases hc with
  | plain c1 c2 => simp; intro h; exact absurd h c1
  | short k hk hv => simp
  | hex k n hk hv => simp

/-- The body of a quoted text, up to its closing quote, is determined by any continuation. -/
theorem quote_body {s t x y : Str}
    (h : s.flatMap (quoteChar E) ++ '"' :: x = t.flatMap (quoteChar E) ++ '"' :: y) : s = t ∧ x = y := by
  induction s generalizing t with
  | nil =>
    cases t with
    | nil => simpa using h
    | cons d t =>
      simp only [List.flatMap_nil, List.nil_append, List.flatMap_cons, List.append_assoc] at h
      exact absurd h.symm ((quoteChar_quoted d).ne_quote)
  | cons c s ih =>
    cases t with
    | nil =>
      simp only [List.flatMap_nil, List.nil_append, List.flatMap_cons, List.append_assoc] at h
      exact absurd h ((quoteChar_quoted c).ne_quote)
    | cons d t =>
      simp only [List.flatMap_cons, List.append_assoc] at h
      obtain ⟨rfl, h2⟩ := (quoteChar_quoted c).prefix_free (quoteChar_quoted d) h
      obtain ⟨rfl, h3⟩ := ih h2
      exact ⟨rfl, h3⟩

theorem quote_inj {s t x y : Str} (h : quote E s ++ x = quote E t ++ y) : s = t ∧ x = y := by
  unfold quote at h
  simp only [List.cons_append, List.append_assoc, List.cons.injEq, true_and, List.nil_append] at h
  exact quote_body h

theorem plain_notMem {p : Str} (h : needsQuote p = false) : '.' ∉ p ∧ '"' ∉ p := by
  unfold needsQuote at h
  rw [List.any_eq_false] at h
  constructor <;> intro hm <;> exact h _ hm (by decide)

/-- What may follow a printed segment: nothing, or a dot and the rest. -/
def Follows (x : Str) : Prop := x = [] ∨ ∃ r, x = '.' :: r

theorem plain_cut {p q x y : Str} (hp : '.' ∉ p) (hq : '.' ∉ q) (hx : Follows x) (hy : Follows y)
    (h : p ++ x = q ++ y) : p = q ∧ x = y := by
  induction p generalizing q with
  | nil =>
    cases q with
    | nil => simpa using h
    | cons d q =>
      rcases hx with rfl | ⟨r, rfl⟩
      · simp at h
      · simp only [List.nil_append, List.cons_append, List.cons.injEq] at h
        exact absurd (by simp [← h.1]) hq
  | cons c p ih =>
    cases q with
    | nil =>
      rcases hy with rfl | ⟨r, rfl⟩
      · simp at h
      · simp only [List.nil_append, List.cons_append, List.cons.injEq] at h
        exact absurd (by simp [h.1]) hp
    | cons d q =>
      simp only [List.cons_append, List.cons.injEq] at h
      obtain ⟨rfl, h⟩ := h
      obtain ⟨rfl, h2⟩ := ih (fun m => hp (by simp [m])) (fun m => hq (by simp [m])) h
      exact ⟨rfl, h2⟩

theorem plain_ne_quoted {p q x y : Str} (hp : needsQuote p = false) (hx : Follows x) :
    p ++ x ≠ quote E q ++ y := by
  intro h
  cases p with
  | nil =>
    rcases hx with rfl | ⟨r, rfl⟩ <;> simp [quote] at h
  | cons c p =>
    simp only [quote, List.cons_append, List.cons.injEq] at h
    exact (plain_notMem hp).2 (by simp [h.1])

theorem fieldPiece_cut {p q x y : Str} (hx : Follows x) (hy : Follows y)
    (h : fieldPiece E p ++ x = fieldPiece E q ++ y) : p = q ∧ x = y := by
  unfold fieldPiece at h
  cases hp : needsQuote p <;> cases hq : needsQuote q <;> simp only [hp, hq, if_true, if_false,
    Bool.false_eq_true] at h
  · exact plain_cut (plain_notMem hp).1 (plain_notMem hq).1 hx hy h
  · exact absurd h (plain_ne_quoted hp hx)
  · exact absurd h.symm (plain_ne_quoted hq hy)
  · exact quote_inj h

/-- The text after the first segment. -/
def fieldRest (E : Env) : List Str → Str
  | [] => []
  | ps => '.' :: fieldString E ps

theorem fieldString_cons (p : Str) (ps : List Str) :
    fieldString E (p :: ps) = fieldPiece E p ++ fieldRest E ps := by
  cases ps <;> simp [fieldString, fieldRest]

theorem fieldRest_follows (ps : List Str) : Follows (fieldRest E ps) := by
  cases ps
  · exact .inl rfl
  · exact .inr ⟨_, rfl⟩

/-- **C56.** Different non-empty paths are printed differently. -/
theorem C56_injective (E : Env) (p q : List Str) (hp : p ≠ []) (hq : q ≠ [])
    (h : fieldString E p = fieldString E q) : p = q := by
  induction p generalizing q with
  | nil => exact absurd rfl hp
  | cons a p ih =>
    cases q with
    | nil => exact absurd rfl hq
    | cons b q =>
      rw [fieldString_cons, fieldString_cons] at h
      obtain ⟨rfl, h2⟩ := fieldPiece_cut (fieldRest_follows p) (fieldRest_follows q) h
      cases p with
      | nil =>
        cases q with
        | nil => rfl
        | cons => exact absurd h2 (by simp [fieldRest])
      | cons c p =>
        cases q with
        | nil => exact absurd h2 (by simp [fieldRest])
        | cons d q =>
          simp only [fieldRest, List.cons.injEq, true_and] at h2
          rw [ih (d :: q) (by simp) (by simp) h2]

example : fieldString testEnv ["a.b".toList, "c".toList] = "\"a.b\".c".toList ∧
    fieldString testEnv ["a".toList, "b".toList, "c".toList] = "a.b.c".toList := by decide +kernel

/-- The two shortest exceptions: without the restriction to non-empty paths, the empty path and the
path with one empty segment are printed alike. -/
theorem C56_empty_refuted : fieldString E [] = fieldString E [[]] := rfl

end

end Aql
