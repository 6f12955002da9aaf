import Verif.Spec.JsonText
import Verif.Proofs.JsonOut
import Verif.Proofs.JsonFlat
import Verif.Proofs.DocText
/-! Texts written by encoding/json follow the grammar of RFC 8259. -/

namespace Aql

open Spec

variable (short : Bool)

mutual

/-- The document that is written. -/
def jsonDoc : JOut → Json
  | .null => .null
  | .num i => .num (jsonInt i)
  | .str s => .str (s.flatMap (jsonChar short))
  | .arr vs => .arr (jsonDocs vs)
  | .obj ms => .obj (jsonDocMembers ms)

def jsonDocs : List JOut → List Json
  | [] => []
  | v :: vs => jsonDoc v :: jsonDocs vs

def jsonDocMembers : List (Str × JOut) → List (Str × Json)
  | [] => []
  | (k, v) :: ms => (k.flatMap (jsonChar short), jsonDoc v) :: jsonDocMembers ms

end

theorem hexDigit_hex {d : Nat} (h : d < 16) : ('0' ≤ hexDigit d ∧ hexDigit d ≤ '9') ∨
    ('a' ≤ hexDigit d ∧ hexDigit d ≤ 'f') ∨ ('A' ≤ hexDigit d ∧ hexDigit d ≤ 'F') := by
  interval_cases d <;> decide

theorem body_char (c : Char) {s : Str} (h : StringBody s) : StringBody (jsonChar short c ++ s) := by
  unfold jsonChar
  split
  · exact .short (by simp) h
  next hq =>
  split
  · exact .short (by simp) h
  next hb =>
  split
  · exact .short (by simp) h
  split
  · exact .short (by simp) h
  split
  · exact .short (by simp) h
  split
  · exact .short (by simp) h
  split
  · exact .short (by simp) h
  split
  · rw [hexDigits_four]
    refine .hex ?_ h
    intro x hx
    simp only [List.mem_cons, List.not_mem_nil, or_false] at hx
    rcases hx with rfl | rfl | rfl | rfl <;> exact hexDigit_hex (Nat.mod_lt _ (by norm_num))
  next hc =>
    simp only [Bool.or_eq_true, decide_eq_true_eq, not_or] at hc
    exact .plain (by omega) hq hb h

theorem body_string (s : Str) : StringBody (s.flatMap (jsonChar short)) := by
  induction s with
  | nil => exact .nil
  | cons c s ih => rw [List.flatMap_cons]; exact body_char short c ih

theorem body_itoa (n : Nat) : itoa n = ['0'] ∨ (SomeDigits (itoa n) ∧ (itoa n).head? ≠ some '0') := by
  have hall : ∀ c ∈ itoa n, '0' ≤ c ∧ c ≤ '9' := fun c hc => (isDig_between c).1 (numeral_digits n c hc)
  by_cases h0 : (itoa n).head? = some '0'
  · left
    have hl : ¬ 1 < (itoa n).length := fun h => numeral_head n h h0
    cases h : itoa n with
    | nil => rw [h] at h0; cases h0
    | cons c t =>
      rw [h] at h0 hl
      simp at h0 hl
      rw [h0, hl]
  · exact .inr ⟨⟨numeral_ne_nil n, hall⟩, h0⟩

theorem body_int (i : Int) : NumberBody (jsonInt i) := by
  unfold jsonInt
  split
  · exact ⟨['-'], itoa i.natAbs, [], [], by simp, .inr rfl, body_itoa _, .inl rfl, .inl rfl⟩
  · exact ⟨[], itoa i.natAbs, [], [], by simp, .inl rfl, body_itoa _, .inl rfl, .inl rfl⟩

theorem newline_blanks (d : Nat) : Blanks (newline d) := by
  intro c hc
  simp only [newline, List.mem_cons, List.mem_replicate] at hc
  rcases hc with rfl | ⟨-, rfl⟩ <;> simp

/-- Items with white space behind them. -/
theorem items_behind {s w : Str} {vs : List Json} (h : Writes s (.items vs)) (hw : Blanks w) : Writes (s ++ w) (.items vs) := by
  generalize hx : Thing.items vs = x at h
  induction h generalizing vs with
  | item h1 h2 h3 =>
    cases hx
    have := Writes.item h1 h2 (fun c hc => (List.mem_append.1 hc).elim (h3 c) (hw c))
    simpa [List.append_assoc] using this
  | moreItems h1 h2 h3 h4 _ ih =>
    cases hx
    have := Writes.moreItems h1 h2 h3 (ih rfl)
    simpa [List.append_assoc] using this
  | _ => cases hx

/-- Members with white space behind them. -/
theorem members_behind {s w : Str} {ms : List (Str × Json)} (h : Writes s (.members ms)) (hw : Blanks w) :
    Writes (s ++ w) (.members ms) := by
  generalize hx : Thing.members ms = x at h
  induction h generalizing ms with
  | member h1 h2 h3 h4 h5 h6 =>
    cases hx
    have := Writes.member h1 h2 h3 h4 h5 (fun c hc => (List.mem_append.1 hc).elim (h6 c) (hw c))
    simpa [List.append_assoc] using this
  | moreMembers h1 h2 h3 h4 h5 h6 h7 _ ih =>
    cases hx
    have := Writes.moreMembers h1 h2 h3 h4 h5 h6 (ih rfl)
    simpa [List.append_assoc] using this
  | _ => cases hx

theorem one_blank : Blanks [' '] := by intro c hc; simp at hc; simp [hc]

mutual

theorem text_writes : ∀ (v : JOut) (d : Nat), Writes (v.text short d) (.value (jsonDoc short v))
  | .null, d => by simp only [JOut.text, jsonDoc]; exact .null
  | .num i, d => by simp only [JOut.text, jsonDoc]; exact .num (body_int i)
  | .str s, d => by
    simp only [JOut.text, jsonDoc, jsonString]
    exact .str (body_string short s)
  | .arr [], d => by
    simp only [JOut.text, jsonDoc, jsonDocs]
    exact .noItems no_blanks
  | .arr (v :: vs), d => by
    rw [JOut.text, jsonDoc]
    exact .arr (items_behind (text_items (v :: vs) (by simp) (d + 1)) (newline_blanks d))
  | .obj [], d => by
    simp only [JOut.text, jsonDoc, jsonDocMembers]
    exact .noMembers no_blanks
  | .obj (m :: ms), d => by
    rw [JOut.text, jsonDoc]
    exact .obj (members_behind (text_members (m :: ms) (by simp) (d + 1)) (newline_blanks d))

theorem text_items : ∀ vs : List JOut, vs ≠ [] → ∀ d : Nat,
    Writes (jsonLines d (JOut.texts short d vs)) (.items (jsonDocs short vs))
  | [], h, _ => absurd rfl h
  | [v], _, d => by
    simp only [JOut.texts, jsonLines, jsonDocs]
    have := Writes.item (newline_blanks d) (text_writes v d) no_blanks
    rwa [List.append_nil] at this
  | v :: v' :: vs, _, d => by
    have h := text_items (v' :: vs) (by simp) d
    have := Writes.moreItems (newline_blanks d) (text_writes v d) no_blanks h
    rw [List.append_nil] at this
    simpa only [JOut.texts, jsonLines, jsonDocs] using this

theorem text_members : ∀ ms : List (Str × JOut), ms ≠ [] → ∀ d : Nat,
    Writes (jsonLines d (JOut.memberTexts short d ms)) (.members (jsonDocMembers short ms))
  | [], h, _ => absurd rfl h
  | [(k, v)], _, d => by
    simp only [JOut.memberTexts, JOut.memberText, jsonLines, jsonDocMembers, jsonString]
    have := Writes.member (newline_blanks d) (body_string short k) no_blanks one_blank (text_writes v d) no_blanks
    simpa [List.append_assoc] using this
  | (k, v) :: m' :: ms, _, d => by
    have h := text_members (m' :: ms) (by simp) d
    have := Writes.moreMembers (newline_blanks d) (body_string short k) no_blanks one_blank (text_writes v d) no_blanks h
    rw [JOut.memberTexts, jsonDocMembers]
    obtain ⟨x, xs, hx⟩ : ∃ x xs, JOut.memberTexts short d (m' :: ms) = x :: xs := ⟨_, _, by rw [JOut.memberTexts]⟩
    rw [hx] at this ⊢
    simp only [JOut.memberText, jsonLines, jsonString]
    simpa [List.append_assoc] using this

end

mutual

theorem flat_writes : ∀ (v : JOut), Writes (v.flat short) (.value (jsonDoc short v))
  | .null => by simp only [JOut.flat, jsonDoc]; exact .null
  | .num i => by simp only [JOut.flat, jsonDoc]; exact .num (body_int i)
  | .str s => by
    simp only [JOut.flat, jsonDoc, jsonString]
    exact .str (body_string short s)
  | .arr [] => by
    simp only [JOut.flat, jsonDoc, jsonDocs, JOut.flats, jsonCommas]
    exact .noItems no_blanks
  | .arr (v :: vs) => by
    rw [JOut.flat, jsonDoc]
    exact .arr (flat_items (v :: vs) (by simp))
  | .obj [] => by
    simp only [JOut.flat, jsonDoc, jsonDocMembers, JOut.memberFlats, jsonCommas]
    exact .noMembers no_blanks
  | .obj (m :: ms) => by
    rw [JOut.flat, jsonDoc]
    exact .obj (flat_members (m :: ms) (by simp))

theorem flat_items : ∀ vs : List JOut, vs ≠ [] → Writes (jsonCommas (JOut.flats short vs)) (.items (jsonDocs short vs))
  | [], h => absurd rfl h
  | [v], _ => by
    simp only [JOut.flats, jsonCommas, jsonDocs]
    have := Writes.item no_blanks (flat_writes v) no_blanks
    rwa [List.append_nil, List.nil_append] at this
  | v :: v' :: vs, _ => by
    have h := flat_items (v' :: vs) (by simp)
    have := Writes.moreItems no_blanks (flat_writes v) no_blanks h
    rw [List.append_nil, List.nil_append] at this
    simpa only [JOut.flats, jsonCommas, jsonDocs] using this

theorem flat_members : ∀ ms : List (Str × JOut), ms ≠ [] →
    Writes (jsonCommas (JOut.memberFlats short ms)) (.members (jsonDocMembers short ms))
  | [], h => absurd rfl h
  | [(k, v)], _ => by
    simp only [JOut.memberFlats, jsonCommas, jsonDocMembers, jsonString]
    have := Writes.member no_blanks (body_string short k) no_blanks no_blanks (flat_writes v) no_blanks
    simpa [List.append_assoc] using this
  | (k, v) :: m' :: ms, _ => by
    have h := flat_members (m' :: ms) (by simp)
    have := Writes.moreMembers no_blanks (body_string short k) no_blanks no_blanks (flat_writes v) no_blanks h
    rw [JOut.memberFlats, jsonDocMembers]
    obtain ⟨x, xs, hx⟩ : ∃ x xs, JOut.memberFlats short (m' :: ms) = x :: xs := by
      obtain ⟨k', v'⟩ := m'
      exact ⟨_, _, by rw [JOut.memberFlats]⟩
    rw [hx] at this ⊢
    simp only [jsonCommas, jsonString]
    simpa [List.append_assoc] using this

end

mutual

theorem jsonDoc_stands : ∀ v : JOut, DocFor (jsonDoc short v) v
  | .null => by simp [jsonDoc, DocFor]
  | .num i => by
    have := readInt_text i [] (by intro c hc; simp at hc)
    rw [List.append_nil] at this
    simpa [jsonDoc, DocFor] using this
  | .str s => by simpa [jsonDoc, DocFor] using readString_text short s []
  | .arr vs => by simpa [jsonDoc, DocFor] using jsonDocs_stand vs
  | .obj ms => by simpa [jsonDoc, DocFor] using jsonDocMembers_stand ms

theorem jsonDocs_stand : ∀ vs : List JOut, DocsForItems (jsonDocs short vs) vs
  | [] => by simp [jsonDocs, DocsForItems]
  | v :: vs => by simpa [jsonDocs, DocsForItems] using ⟨jsonDoc_stands v, jsonDocs_stand vs⟩

theorem jsonDocMembers_stand : ∀ ms : List (Str × JOut), DocsForMembers (jsonDocMembers short ms) ms
  | [] => by simp [jsonDocMembers, DocsForMembers]
  | (k, v) :: ms => by
    simpa [jsonDocMembers, DocsForMembers] using ⟨readString_text short k [], jsonDoc_stands v, jsonDocMembers_stand ms⟩

end

mutual

theorem stands_unique : ∀ (d : Json) {v w : JOut}, DocFor d v → DocFor d w → v = w
  | .null, v, w, h, h' => by cases v <;> cases w <;> simp_all [DocFor]
  | .bool b, v, w, h, h' => by cases v <;> simp_all [DocFor]
  | .num raw, v, w, h, h' => by cases v <;> cases w <;> simp_all [DocFor]
  | .str raw, v, w, h, h' => by cases v <;> cases w <;> simp_all [DocFor]
  | .arr ds, v, w, h, h' => by
    cases v <;> simp only [DocFor] at h
    cases w <;> simp only [DocFor] at h'
    rw [stands_items_unique ds h h']
  | .obj ds, v, w, h, h' => by
    cases v <;> simp only [DocFor] at h
    cases w <;> simp only [DocFor] at h'
    rw [stands_members_unique ds h h']

theorem stands_items_unique : ∀ (ds : List Json) {vs ws : List JOut}, DocsForItems ds vs → DocsForItems ds ws → vs = ws
  | [], vs, ws, h, h' => by cases vs <;> cases ws <;> simp_all [DocsForItems]
  | d :: ds, vs, ws, h, h' => by
    cases vs <;> simp only [DocsForItems] at h
    cases ws <;> simp only [DocsForItems] at h'
    rw [stands_unique d h.1 h'.1, stands_items_unique ds h.2 h'.2]

theorem stands_members_unique : ∀ (ds : List (Str × Json)) {vs ws : List (Str × JOut)}, DocsForMembers ds vs →
    DocsForMembers ds ws → vs = ws
  | [], vs, ws, h, h' => by cases vs <;> cases ws <;> simp_all [DocsForMembers]
  | (raw, d) :: ds, vs, ws, h, h' => by
    rcases vs with _ | ⟨⟨k, v⟩, vs⟩ <;> simp only [DocsForMembers] at h
    rcases ws with _ | ⟨⟨k', w⟩, ws⟩ <;> simp only [DocsForMembers] at h'
    have hk := h.1.symm.trans h'.1
    simp only [Option.some.injEq, Prod.mk.injEq, and_true] at hk
    rw [hk, stands_unique d h.2.1 h'.2.1, stands_members_unique ds h.2.2 h'.2.2]

end

mutual

theorem stands_nested : ∀ (d : Json) {v : JOut}, DocFor d v → nestedIn d = joutNested v
  | .null, v, h => by cases v <;> simp_all [DocFor, nestedIn, joutNested]
  | .bool b, v, h => by cases v <;> simp_all [DocFor]
  | .num raw, v, h => by cases v <;> simp_all [DocFor, nestedIn, joutNested]
  | .str raw, v, h => by cases v <;> simp_all [DocFor, nestedIn, joutNested]
  | .arr ds, v, h => by
    cases v <;> simp only [DocFor] at h
    rw [nestedIn, joutNested, stands_items_nested ds h]
  | .obj ds, v, h => by
    cases v <;> simp only [DocFor] at h
    rw [nestedIn, joutNested, stands_members_nested ds h]

theorem stands_items_nested : ∀ (ds : List Json) {vs : List JOut}, DocsForItems ds vs → nestedInItems ds = joutNestedItems vs
  | [], vs, h => by cases vs <;> simp_all [DocsForItems, nestedInItems, joutNestedItems]
  | d :: ds, vs, h => by
    cases vs <;> simp only [DocsForItems] at h
    rw [nestedInItems, joutNestedItems, stands_nested d h.1, stands_items_nested ds h.2]

theorem stands_members_nested : ∀ (ds : List (Str × Json)) {vs : List (Str × JOut)}, DocsForMembers ds vs →
    nestedInMembers ds = joutNestedMembers vs
  | [], vs, h => by cases vs <;> simp_all [DocsForMembers, nestedInMembers, joutNestedMembers]
  | (raw, d) :: ds, vs, h => by
    rcases vs with _ | ⟨⟨k, v⟩, vs⟩ <;> simp only [DocsForMembers] at h
    rw [nestedInMembers, joutNestedMembers, stands_nested d h.2.1, stands_members_nested ds h.2.2]

end

end Aql
