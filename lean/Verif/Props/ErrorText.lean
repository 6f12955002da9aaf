import Verif.Proofs.Expected
/-!
Property C85: the messages of syntax errors are true of the text they mark.
-/

namespace Aql

open Spec

variable (E : Env)

/-! ### C85 -/

/-- **C85.** A rejection by the grammar marks a place of the text, and its message, with the reported
length, is true of the text there. -/
theorem C85_message_true (s : Str) (e : PErr) (h : grammarOut E (decode (utf8 s)) = some (.error e)) :
    ∃ pre u post, s = pre ++ (u ++ post) ∧ e.pos.offset = bytesOf pre ∧
      ((∃ t, u ++ post = '\n' :: t) → e.pos.line = lineOf pre + 1 ∧ e.pos.col = 0) ∧
      ((∀ t, u ++ post ≠ '\n' :: t) → e.pos.line = lineOf pre ∧ e.pos.col = colOf pre) ∧
      ∃ n : Nat, e.pos.len = n ∧ Diagnosis E pre u post e.msg n := by
  rw [decode_utf8] at h
  unfold grammarOut at h
  rcases hp : parse E (s.map .ok) with _ | (v | ⟨p, k⟩)
  · rw [hp] at h; cases h
  · rw [hp] at h
    obtain ⟨n, rfl⟩ := parse_node hp
    simp at h
  · rw [hp] at h
    simp only [Option.map_some, Option.some.injEq, Except.error.injEq] at h
    obtain ⟨q, u, post, rfl, rfl, hd⟩ := parse_fault hp
    rw [List.nil_append] at hd h
    subst h
    refine ⟨q, u, post, rfl, ?_, ?_, ?_, _, rfl, hd⟩
    · show ((locAt q (u ++ post)).off : Int) = _
      rw [locAt_off]
    · rintro ⟨t, ht⟩
      rw [ht]
      exact ⟨rfl, rfl⟩
    · intro hn
      rw [locAt_other hn]
      exact ⟨rfl, rfl⟩

/-- Position and message of the diagnosed. -/
def diagnosed (s : Str) : Option (Pos × Str) :=
  match grammarOut E (decode (utf8 s)) with
  | some (.error e) => some (e.pos, e.msg)
  | _ => none

-- one text for each kind of message
example : diagnosed testEnv "a:99999999999999999999".toList =
    some (⟨1, 3, 2, 1⟩, "invalid integer value [99999999999999999999]".toList) := by decide +kernel
example : diagnosed testEnv "a:(1,300.0.0.1)".toList =
    some (⟨1, 6, 5, 9⟩, "invalid network value [300.0.0.1/32]: ".toList ++ testEnv.netErr "300.0.0.1/32".toList) := by
  decide +kernel
example : diagnosed testEnv "a:2021-13-01".toList =
    some (⟨1, 3, 2, 10⟩, "invalid datetime value [2021-13-01]: ".toList ++ testEnv.timeErr "2021-13-01".toList) := by
  decide +kernel
example : diagnosed testEnv "a:\"\\ud800\"".toList =
    some (⟨1, 3, 2, 8⟩, "invalid string: invalid syntax".toList) := by decide +kernel
example : diagnosed testEnv "a:\"x".toList = some (⟨1, 5, 4, 1⟩,
    "unterminated string, check for missing closing [\"] or unescaped [\\]".toList) := by decide +kernel
example : diagnosed testEnv "a:/x".toList = some (⟨1, 5, 4, 1⟩,
    "unterminated regular expression, did you forget a closing '/'?".toList) := by decide +kernel
example : diagnosed testEnv "a:(1)".toList =
    some (⟨1, 3, 2, 1⟩, "unnecessary parenthesis for only one value".toList) := by decide +kernel
example : diagnosed testEnv "a:)".toList =
    some (⟨1, 3, 2, 1⟩, "unexpected closing parenthesis, expecting values".toList) := by decide +kernel
example : diagnosed testEnv "a:b".toList =
    some (⟨1, 3, 2, 1⟩, "unknown type of value [b] -- did you mean \"b\"?".toList) := by decide +kernel
example : diagnosed testEnv "a:1 b:2".toList =
    some (⟨1, 5, 4, 1⟩, "no match found, expected: \"AND\", \"OR\", [ \\n\\t\\r] or EOF".toList) := by decide +kernel

/-- **C85.** The expectations listed are exactly the tests that failed at the furthest place where one
failed: `log` are the tests of the run; those under `!` fail if they match. -/
theorem C85_expected_exact (s : Str) (log : List Ev) (r : Res) (hr : runStart E (s.map .ok) = .done log r) (p : Loc)
    (ws : List Str) (k : Option Nat) (h : parse E (s.map .ok) = some (.error p ⟨.noMatch ws, k⟩)) :
    (∀ b q w, Ev.mark b b q w ∈ log → q.off ≤ p.off) ∧
    ∀ x, x ∈ ws ↔ ∃ q, q.off = p.off ∧
      (Ev.mark false false q x ∈ log ∨ (∃ w, w ≠ ['.'] ∧ x = '!' :: w ∧ Ev.mark true true q w ∈ log) ∨
        x = "EOF".toList ∧ Ev.mark true true q ['.'] ∈ log) := by
  obtain ⟨l, r0, hb, hd, hp⟩ := parse_big (E := E) (s.map .ok)
  rw [cur_init, encErr_cur, List.nil_append] at hp hd
  rw [cur_init] at hb
  rw [hr] at hd
  cases hd
  rw [h] at hp
  simp only [Option.some.injEq] at hp
  have hke : ∀ ev ∈ log, ∀ q j, ev ≠ Ev.err q ⟨.noMatch ws, j⟩ := by
    intro ev hev q j he
    subst he
    obtain ⟨_, _, _, _, -, -, -, -, -, -, hn⟩ := hb.spans (reads_grammar _) rfl _ hev
    exact hn ws rfl
  have hf : p = (furthest log).1 ∧ ws = expectedOf (furthest log).2 := by
    unfold finish at hp
    split at hp
    · rename_i l' e' tl hl
      cases hp
      have hm : (p, (⟨.noMatch ws, k⟩ : RecErr)) ∈ errorsOf log := by rw [hl]; simp
      exact absurd rfl (hke _ (mem_errorsOf.1 hm) p k)
    · cases hp
    · cases hp
      exact ⟨rfl, rfl⟩
    · cases hp
  obtain ⟨rfl, rfl⟩ := hf
  obtain ⟨h1, h2, -, -⟩ := furthest_spec log
  have ht := hb.tests rfl (told_grammar _) rfl
  have hnb : ∀ {f i q w}, Ev.mark f i q w ∈ log → ∃ T, readWant w = some T := by
    intro f i q w hm
    obtain ⟨_, _, T, -, -, hw, -⟩ := ht _ hm
    exact ⟨T, hw⟩
  refine ⟨h1, fun x => ?_⟩
  rw [mem_expectedOf]
  constructor
  · rintro (⟨hx, hne⟩ | ⟨rfl, hx⟩)
    · obtain ⟨b, q, w, hm, ho, rfl⟩ := (h2 x).1 hx
      cases b
      · exact ⟨q, ho, .inl hm⟩
      · exact ⟨q, ho, .inr (.inl ⟨w, fun h => hne (by rw [h]; rfl), rfl, hm⟩)⟩
    · obtain ⟨b, q, w, hm, ho, hs⟩ := (h2 _).1 hx
      cases b
      · obtain ⟨T, hT⟩ := hnb hm
        rw [← show _ = w from hs] at hT
        cases hT
      · cases hs
        exact ⟨q, ho, .inr (.inr ⟨rfl, hm⟩)⟩
  · rintro ⟨q, ho, hm | ⟨w, hne, rfl, hm⟩ | ⟨rfl, hm⟩⟩
    · refine .inl ⟨(h2 x).2 ⟨false, q, x, hm, ho, rfl⟩, fun hx => ?_⟩
      obtain ⟨T, hT⟩ := hnb hm
      rw [hx] at hT
      cases hT
    · refine .inl ⟨(h2 _).2 ⟨true, q, w, hm, ho, rfl⟩, fun hx => ?_⟩
      cases hx
      exact hne rfl
    · exact .inr ⟨rfl, (h2 _).2 ⟨true, q, _, hm, ho, rfl⟩⟩

end Aql
