import Verif.Model.MsgText
import Verif.Proofs.JsonOut
import Verif.Proofs.JsonFlat
import Verif.Props.EndToEnd
/-!
Property C98: the texts of messages and errors.
-/

namespace Aql

open Spec

variable (E : Env) (short : Bool)

/-! ### C98 -/

/-- The position is known: lines and columns are counted from one, offsets from zero. -/
def Spec.Placed (p : Pos) : Prop := p.line ≠ 0 ∧ p.col ≠ 0 ∧ p.offset ≠ -1

/-- Both positions are unknown, or they are the same place. -/
def Spec.SamePlace (p p' : Pos) : Prop :=
  (¬ Placed p ∧ ¬ Placed p') ∨
    (Placed p ∧ Placed p' ∧ p.line = p'.line ∧ p.col = p'.col ∧ p.offset = p'.offset)

theorem jsonInt_cut {i i' : Int} {c : Char} {t t' : Str} (hc : isDig c = false)
    (h : jsonInt i ++ c :: t = jsonInt i' ++ c :: t') : i = i' ∧ t = t' := by
  have h1 := readInt_text i (c :: t) (noDigit_char t hc)
  rw [h, readInt_text i' (c :: t') (noDigit_char t' hc)] at h1
  simp only [Option.some.injEq, Prod.mk.injEq, List.cons.injEq, true_and] at h1
  exact ⟨h1.1.symm, h1.2.symm⟩

theorem typeName_cut {a b : MsgType} {c c' : Char} {t t' : Str}
    (h : a.name ++ c :: t = b.name ++ c' :: t') : a = b ∧ c = c' ∧ t = t' := by
  cases a <;> cases b <;> simp [MsgType.name] at h ⊢ <;> exact h

theorem msg_unplaced {m : Msg} (h : ¬ Placed m.pos) : m.toStr = m.type.name ++ ':' :: ' ' :: m.text := by
  have : m.pos.line = 0 ∨ m.pos.col = 0 ∨ m.pos.offset = -1 := by
    unfold Placed at h; omega
  rw [Msg.toStr, if_pos this]
  simp

theorem msg_placed {m : Msg} (h : Placed m.pos) : m.toStr = m.type.name ++ ' ' :: '[' :: (jsonInt m.pos.line ++
    ':' :: (jsonInt m.pos.col ++ '(' :: (jsonInt m.pos.offset ++ ')' :: ']' :: ':' :: ' ' :: m.text))) := by
  have : ¬ (m.pos.line = 0 ∨ m.pos.col = 0 ∨ m.pos.offset = -1) := by
    unfold Placed at h; omega
  rw [Msg.toStr, if_neg this]
  simp

/-- **C98.** The printed text of a message shows its type, its text and its place: two messages are printed alike
exactly if these are the same. -/
theorem C98_message_text (m m' : Msg) :
    m.toStr = m'.toStr ↔ m.type = m'.type ∧ m.text = m'.text ∧ SamePlace m.pos m'.pos := by
  by_cases h1 : Placed m.pos <;> by_cases h2 : Placed m'.pos
  · rw [msg_placed h1, msg_placed h2]
    constructor
    · intro h
      obtain ⟨ht, -, h⟩ := typeName_cut h
      simp only [List.cons.injEq, true_and] at h
      obtain ⟨hl, h⟩ := jsonInt_cut (by decide) h
      obtain ⟨hc, h⟩ := jsonInt_cut (by decide) h
      obtain ⟨ho, h⟩ := jsonInt_cut (by decide) h
      simp only [List.cons.injEq, true_and] at h
      exact ⟨ht, h, Or.inr ⟨h1, h2, hl, hc, ho⟩⟩
    · rintro ⟨ht, hx, hp | ⟨-, -, hl, hc, ho⟩⟩
      · exact absurd h1 hp.1
      · rw [ht, hx, hl, hc, ho]
  · rw [msg_placed h1, msg_unplaced h2]
    constructor
    · intro h
      obtain ⟨-, h, -⟩ := typeName_cut h
      exact absurd h (by decide)
    · rintro ⟨-, -, hp | hp⟩
      · exact absurd h1 hp.1
      · exact absurd hp.2.1 h2
  · rw [msg_unplaced h1, msg_placed h2]
    constructor
    · intro h
      obtain ⟨-, h, -⟩ := typeName_cut h
      exact absurd h (by decide)
    · rintro ⟨-, -, hp | hp⟩
      · exact absurd h2 hp.2
      · exact absurd hp.1 h1
  · rw [msg_unplaced h1, msg_unplaced h2]
    constructor
    · intro h
      obtain ⟨ht, -, h⟩ := typeName_cut h
      simp only [List.cons.injEq, true_and] at h
      exact ⟨ht, h, Or.inl ⟨h1, h2⟩⟩
    · rintro ⟨ht, hx, -⟩
      rw [ht, hx]

/-- **C98.** The text of an error shows its line, column, offset and message. -/
theorem C98_error_text (e e' : PErr) : e.errorText = e'.errorText ↔
    e.pos.line = e'.pos.line ∧ e.pos.col = e'.pos.col ∧ e.pos.offset = e'.pos.offset ∧ e.msg = e'.msg := by
  have key : ∀ x : PErr, x.errorText = jsonInt x.pos.line ++ ':' :: (jsonInt x.pos.col ++ '(' ::
      (jsonInt x.pos.offset ++ ')' :: ':' :: ' ' :: x.msg)) := by
    intro x; simp [PErr.errorText]
  rw [key, key]
  constructor
  · intro h
    obtain ⟨hl, h⟩ := jsonInt_cut (by decide) h
    obtain ⟨hc, h⟩ := jsonInt_cut (by decide) h
    obtain ⟨ho, h⟩ := jsonInt_cut (by decide) h
    simp only [List.cons.injEq, true_and] at h
    exact ⟨hl, hc, ho, h⟩
  · rintro ⟨hl, hc, ho, hm⟩
    rw [hl, hc, ho, hm]

/-- Decimal digits of a number, as read. -/
def Spec.ShowsNumber (t : Str) (n : Nat) : Prop := t ≠ [] ∧ (∀ c ∈ t, '0' ≤ c ∧ c ≤ '9') ∧
  (1 < t.length → t.head? ≠ some '0') ∧ digitsValue t = n

theorem jsonInt_shows (n : Nat) : ShowsNumber (jsonInt n) n := by
  have hn : jsonInt (n : Int) = itoa n := by
    rw [jsonInt, if_neg (by omega)]
    rfl
  rw [hn]
  have hd : ∀ c ∈ itoa n, isDig c = true := fun c hc => numeral_digits n c hc
  refine ⟨numeral_ne_nil n, fun c hc => ?_, numeral_head n, by rw [← natOfDigits_eq]; exact natOfDigits_numeral n⟩
  have := hd c hc
  simpa [isDig] using this

/-- **C98.** Every message of a matcher is printed with its place, which is where a value of the query begins: the line
and the column, counted from one, and the number of bytes before it. -/
theorem C98_matcher_messages (query : List UInt8) (m : Matcher) (msgs : List Msg)
    (h : newMatcher E query = some (.ok (.ok (m, msgs)))) : ∃ s, query = utf8 s ∧
      ∀ x ∈ msgs, ∃ q u rest v, s = q ++ (u ++ rest) ∧ Lit E q u v ∧ ∃ kind l c o,
        kind ∈ ["HINT".toList, "WARNING".toList] ∧ ShowsNumber l (lineOf q) ∧ ShowsNumber c (colOf q) ∧ ShowsNumber o (bytesOf q) ∧
        x.toStr = kind ++ " [".toList ++ l ++ ":".toList ++ c ++ "(".toList ++ o ++ ")]: ".toList ++ x.text := by
  obtain ⟨s, n, hs, -, hm⟩ := C62_message_positions E query m msgs h
  refine ⟨s, hs, fun x hx => ?_⟩
  obtain ⟨ht, op, f, vs, p, -, v, -, q, u, rest, e, hl, hp⟩ := hm x hx
  refine ⟨q, u, rest, v, e, hl, x.type.name, jsonInt (lineOf q), jsonInt (colOf q), jsonInt (bytesOf q), ?_,
    jsonInt_shows _, jsonInt_shows _, jsonInt_shows _, ?_⟩
  · cases hk : x.type
    · simp [MsgType.name]
    · simp [MsgType.name]
    · exact absurd hk ht
  · rw [Msg.toStr, hp]
    rw [if_neg]
    · rfl
    · simp only [posAt]
      unfold lineOf colOf
      omega

/-- **C98.** As JSON a message is an object with its position, text and type, and different messages have different
texts. -/
theorem C98_message_json (m : Msg) : readJson (m.json.flat short) = some (.obj [
      ("position".toList, .obj [("line".toList, .num m.pos.line), ("column".toList, .num m.pos.col),
        ("offset".toList, .num m.pos.offset), ("length".toList, .num m.pos.len)]),
      ("message".toList, .str m.text),
      ("type".toList, .str (match m.type with
        | .hint => "HINT".toList
        | .warning => "WARNING".toList
        | .error => "ERROR".toList))]) := by
  rw [readJson_flat]
  cases m with
  | mk t p x => cases t <;> rfl

theorem C98_message_json_unique (m m' : Msg) : m.json.flat short = m'.json.flat short ↔ m = m' := by
  constructor
  · intro h
    have h1 := readJson_flat short m.json
    rw [h, readJson_flat] at h1
    obtain ⟨t, p, x⟩ := m
    obtain ⟨t', p', x'⟩ := m'
    obtain ⟨l, c, o, n⟩ := p
    obtain ⟨l', c', o', n'⟩ := p'
    simp only [Msg.json, Pos.json, Option.some.injEq, JOut.obj.injEq, List.cons.injEq, Prod.mk.injEq, JOut.num.injEq,
      JOut.str.injEq, true_and, and_true] at h1
    obtain ⟨⟨rfl, rfl, rfl, rfl⟩, rfl, ht⟩ := h1
    have : t = t' := by cases t <;> cases t' <;> first | rfl | exact absurd ht (by decide)
    rw [this]
  · rintro rfl; rfl

/-- The printed messages of a matcher. -/
def printedMessages (E : Env) (s : Str) : List Str :=
  match newMatcher E (utf8 s) with
  | some (.ok (.ok (_, msgs))) => msgs.map Msg.toStr
  | _ => []

-- a warning about a value on the second line, with its place
example : (printedMessages testEnv "a:1 AND\n\"é\":~\"x\"".toList).map (fun t => String.ofList (t.take 20)) =
    ["WARNING [2:6(14)]: S"] := by
  decide +kernel

example : String.ofList (Msg.toStr ⟨.warning, ⟨2, 3, 10, 4⟩, "x".toList⟩) = "WARNING [2:3(10)]: x" ∧
    String.ofList (Msg.toStr ⟨.hint, noPosition, "[1:1(0)]: x".toList⟩) = "HINT: [1:1(0)]: x" ∧
    String.ofList (PErr.errorText ⟨noPosition, "x".toList⟩) = "0:0(-1): x" := by
  decide +kernel

end Aql
