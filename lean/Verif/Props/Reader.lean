import Verif.Spec.Reads
import Verif.Props.EndToEnd
/-!
Property C120: queries that are read from an `io.Reader` (parser.go:20-81, parser_gen.go:2424-2431).
-/

namespace Aql

open Spec

variable (E : Env)

/-! ### What is read -/

theorem delivers_unique {r : Nat → ReadRes} {i : Nat} {b b' : List UInt8} {e e' : ReadEnd} (h : Delivers r i b e)
    (h' : Delivers r i b' e') : b = b' ∧ e = e' := by
  induction h generalizing b' e' with
  | last h =>
    cases h' with
    | last h' => rw [h] at h'; exact ⟨rfl, Option.some.inj h'⟩
    | more h' _ => rw [h] at h'; cases h'
  | more h _ ih =>
    cases h' with
    | last h' => rw [h] at h'; cases h'
    | more _ h' => obtain ⟨rfl, rfl⟩ := ih h'; exact ⟨rfl, rfl⟩

/-- What `ReadAll` makes of the bytes and the end. -/
def readOutcome (b : List UInt8) : ReadEnd → Except Str (List UInt8)
  | .eof => .ok b
  | .failed m => .error m

theorem readAll_delivers {r : Nat → ReadRes} {i : Nat} {b : List UInt8} {e : ReadEnd} (h : Delivers r i b e) :
    ∃ k, ∀ n acc, readAllFrom r n i acc = if k < n then some (readOutcome (acc ++ b) e) else none := by
  induction h with
  | @last i e h =>
    refine ⟨0, fun n acc => ?_⟩
    cases n with
    | zero => simp [readAllFrom]
    | succ n => rw [readAllFrom, h]; cases e <;> simp [readOutcome]
  | @more i b e h _ ih =>
    obtain ⟨k, ih⟩ := ih
    refine ⟨k + 1, fun n acc => ?_⟩
    cases n with
    | zero => simp [readAllFrom]
    | succ n => rw [readAllFrom, h]; simp only [ih, Nat.add_lt_add_iff_right, List.append_assoc]

theorem readAll_ends {r : Nat → ReadRes} : ∀ {n i : Nat} {acc : List UInt8} {x},
    readAllFrom r n i acc = some x → ∃ b e, Delivers r i b e
  | 0, _, _, _, h => by simp [readAllFrom] at h
  | n + 1, i, acc, x, h => by
    rw [readAllFrom] at h
    rcases hi : (r i).err with _ | e
    · rw [hi] at h
      obtain ⟨b, e, h⟩ := readAll_ends h
      exact ⟨_, e, .more hi h⟩
    · exact ⟨_, e, .last hi⟩

/-! ### C120 -/

/-- **C120.** If the reader delivers the bytes of a query, in whatever portions, `ParseQueryReader` does what
`ParseQuery` does with these bytes, after finitely many calls of `Read`. -/
theorem C120_portions {σ : Type} (vs : List (Visitor σ)) (s : VState σ) (r : Nat → ReadRes) (b : List UInt8)
    (h : Delivers r 0 b .eof) :
    ∃ k, ∀ n, k < n → parseQueryReader E vs s r n = parseQuery E vs s b := by
  obtain ⟨k, hk⟩ := readAll_delivers h
  refine ⟨k, fun n hn => ?_⟩
  rw [parseQueryReader, hk, if_pos hn]
  rfl

/-- **C120.** If reading fails, the error has the text of the reader's error and no position, there is no tree even if
what was read before is a query, and no visitor has been called. -/
theorem C120_failed {σ : Type} (vs : List (Visitor σ)) (s : VState σ) (r : Nat → ReadRes) (b : List UInt8) (m : Str)
    (h : Delivers r 0 b (.failed m)) :
    ∃ k, ∀ n, k < n → parseQueryReader E vs s r n = some (.ok (s, .error ⟨noPosition, m⟩)) := by
  obtain ⟨k, hk⟩ := readAll_delivers h
  refine ⟨k, fun n hn => ?_⟩
  rw [parseQueryReader, hk, if_pos hn]
  rfl

/-- **C120.** `ParseQueryReader` returns or panics if and only if the reader ends. -/
theorem C120_endless {σ : Type} (vs : List (Visitor σ)) (s : VState σ) (r : Nat → ReadRes) :
    (∃ n x, parseQueryReader E vs s r n = some x) ↔ ∃ b e, Delivers r 0 b e := by
  constructor
  · rintro ⟨n, x, h⟩
    rw [parseQueryReader] at h
    rcases hr : readAllFrom r n 0 [] with _ | y
    · rw [hr] at h; cases h
    · exact readAll_ends hr
  · rintro ⟨b, e, h⟩
    cases e with
    | failed m => obtain ⟨k, hk⟩ := C120_failed E vs s r b m h; exact ⟨k + 1, _, hk _ (by omega)⟩
    | eof =>
      obtain ⟨k, hk⟩ := C120_portions E vs s r b h
      refine ⟨k + 1, ?_⟩
      rw [hk _ (by omega), parseQuery]
      rcases (C01_parser_terminates E b).2.2 with ⟨x, hx⟩ | ⟨x, hx⟩ <;> rw [hx] <;> exact ⟨_, rfl⟩

/-- **C120.** Without visitors of one's own, an error has no position if and only if reading failed: every other error
marks a place in the query. -/
theorem C120_position {σ : Type} (s s' : VState σ) (r : Nat → ReadRes) (n : Nat) (e : PErr)
    (h : parseQueryReader E [] s r n = some (.ok (s', .error e))) :
    e.pos = noPosition ↔ ∃ b, Delivers r 0 b (.failed e.msg) := by
  obtain ⟨b, d, hd⟩ := (C120_endless E [] s r).1 ⟨n, _, h⟩
  obtain ⟨k, hk⟩ := readAll_delivers hd
  have hn : k < n := by
    by_contra hn
    rw [parseQueryReader, hk, if_neg hn] at h
    cases h
  cases d with
  | failed m =>
    rw [parseQueryReader, hk, if_pos hn] at h
    cases h
    exact ⟨fun _ => ⟨b, hd⟩, fun _ => rfl⟩
  | eof =>
    refine ⟨fun hp => ?_, fun ⟨b', hb'⟩ => by cases (delivers_unique hd hb').2⟩
    exfalso
    have h0 : e.pos.offset = -1 := by rw [hp]; rfl
    rw [parseQueryReader, hk, if_pos hn, List.nil_append, readOutcome] at h
    dsimp only at h
    rcases (C01_parser_terminates E b).2.2 with ⟨t, ht⟩ | ⟨t, ht⟩
    · by_cases hok : AllOk E t
      · rw [ht, Option.map_some, finishParse_accepted E [] s t hok] at h
        cases h
      · obtain ⟨u, e', -, he', -, -, c, -, op, f, vs, p, x, rest, -, -, -, -, -, -, hpos⟩ :=
          C61_validation_error_position E [] s b t ht hok
        rw [parseQuery, h] at he'
        cases he'
        rcases hpos with hpos | ⟨v, -, q, w, -, -, hpos, -⟩ <;> rw [hpos] at h0 <;> simp only [posAt] at h0 <;> omega
    · rw [ht] at h
      cases h
      obtain ⟨h1, -⟩ := C06_error_position_partial E b e ht
      omega

/-- A reader that has these results and then ends. -/
def readerOf (l : List ReadRes) : Nat → ReadRes := fun i => l.getD i ⟨[], some .eof⟩

-- a query in three portions, one of them empty, the last together with the end; a reader that fails behind a query
example : Delivers (readerOf [⟨utf8 "a:".toList, none⟩, ⟨[], none⟩, ⟨utf8 "1".toList, some .eof⟩]) 0
      (utf8 "a:1".toList) .eof ∧
    Delivers (readerOf [⟨utf8 "a:1".toList, none⟩, ⟨[], some (.failed "broken".toList)⟩]) 0
      (utf8 "a:1".toList) (.failed "broken".toList) := by
  constructor
  · have h := Delivers.more (i := 0) rfl (.more (i := 1) rfl (.last (i := 2)
      (r := readerOf [⟨utf8 "a:".toList, none⟩, ⟨[], none⟩, ⟨utf8 "1".toList, some .eof⟩]) rfl))
    exact h
  · have h := Delivers.more (i := 0) rfl (.last (i := 1)
      (r := readerOf [⟨utf8 "a:1".toList, none⟩, ⟨[], some (.failed "broken".toList)⟩]) rfl)
    exact h

-- a reader that never ends; an error of a query that was read has a position, also if nothing was read
example : readAllFrom (fun _ => ⟨[97], none⟩) 5 0 [] = none ∧
    (rejection testEnv []).map (fun x => x.1) = some ⟨1, 1, 0, 1⟩ := by
  refine ⟨rfl, ?_⟩
  decide +kernel

end Aql
