import Verif.Proofs.WantNumber
/-!
The tests that fail at the furthest place of a run, for values.
-/

namespace Aql

open Spec

variable {E : Env} {ctx : Ctx} {fr fr' : VFrame} {pre s a b q w : Str} {f : Bool} {v : PV}

theorem read_quote : readWant "\"\\\"\"".toList = some (.lit ['"'] false) := by decide +kernel
theorem read_slash : readWant "\"/\"".toList = some (.lit ['/'] false) := by decide +kernel
theorem read_false : readWant "\"false\"".toList = some (.lit "false".toList false) := by decide +kernel
theorem read_true : readWant "\"true\"".toList = some (.lit "true".toList false) := by decide +kernel
theorem read_ink : readWant "[^ \\n\\t\\r]".toList = some (.cls [' ', '\n', '\t', '\r'] [] false true) := by decide +kernel

theorem lit_empty : Lit E pre ['"', '"'] (.str [] (posAt pre ['"', '"'])) := .string (s := []) .nil rfl

theorem lit_pattern : ∃ v, Lit E pre ('/' :: ("(?i)a".toList ++ ['/'])) v := by
  have hb : RegexBody ['(', '?', 'i', ')', 'a'] := by
    repeat' first
      | exact .nil
      | refine .plain (by decide) (by decide) (by decide) ?_
  have hu : Unescaped ['/', '(', '?', 'i', ')', 'a', '/'] ['/', '(', '?', 'i', ')', 'a', '/'] := by
    repeat' first
      | exact .nil
      | refine .other (by intro h; cases h) ?_
  exact ⟨_, .regex (src := "(?i)a".toList) hb rfl hu ⟨1, 1, rfl, by decide, by decide⟩ (by
    unfold reCompiles
    rw [show (parseFrag "(?i)a".toList).isSome = true by decide +kernel, Bool.true_or])⟩

theorem bytes_prefix {p r : Str} (h : p <+: r) : bytesOf p ≤ bytesOf r := by
  obtain ⟨t, rfl⟩ := h
  rw [bytes_append]
  omega

theorem bytes_snoc {c : Char} {x : Str} : bytesOf x < bytesOf (x ++ [c]) := by
  rw [bytes_append]
  have := bytesOf_pos (c := c) (s := [])
  omega

theorem want_quoted (hc : ctx.inv = false) (h : Want E ctx (.rule .QuotedValue) fr pre s q f w)
    (hs : Stop E ctx (.rule .QuotedValue) fr pre s q) : q = pre ∧ f = false ∧ w = "\"\\\"\"".toList := by
  rcases ask_done h.ask with ⟨v, a, b, g, hk⟩ | hn
  · exfalso
    have h1 := hs _ _ _ _ hk
    rcases ask_in_quoted h.ask with rfl | ⟨_, _, _, h2, a', rfl, h3⟩
    · obtain ⟨-, t, x, -, rfl, -⟩ := rule_quoted.1 (okR.1 hk).2
      rw [bytes_append] at h1
      have := bytesOf_pos (c := '"') (s := t ++ ['"'])
      omega
    · obtain ⟨-, rfl, -, -⟩ := Ok.det hk (okR.2 ⟨(okR.1 hk).1, h2⟩)
      rw [← List.append_assoc] at h1
      have := bytes_prefix h3
      have := bytes_snoc (c := '"') (x := pre ++ a')
      omega
  · have hh := quoted_head hn
    replace h := want_rule h
    rw [grammar_quoted] at h
    rcases want_seq (want_action (want_recover h)) with ⟨h, -⟩ | ⟨_, _, _, _, h0, -⟩
    · exact want_lit (by exact hc) h
    · obtain ⟨-, -, rfl, -⟩ := ok_lit1.1 h0
      exact (hh _ _ rfl rfl).elim

theorem want_regex (hc : ctx.inv = false) (h : Want E ctx (.rule .RegexValue) fr pre s q f w)
    (hs : Stop E ctx (.rule .RegexValue) fr pre s q) : q = pre ∧ f = false ∧ w = "\"/\"".toList := by
  rcases ask_done h.ask with ⟨v, a, b, g, hk⟩ | hn
  · exfalso
    have h1 := hs _ _ _ _ hk
    rcases ask_in_regex h.ask with rfl | ⟨_, _, _, h2, a', rfl, h3⟩
    · obtain ⟨-, t, u, src, -, rfl, -⟩ := rule_regex.1 (okR.1 hk).2
      rw [bytes_append] at h1
      have := bytesOf_pos (c := '/') (s := t ++ ['/'])
      omega
    · obtain ⟨-, rfl, -, -⟩ := Ok.det hk (okR.2 ⟨(okR.1 hk).1, h2⟩)
      rw [← List.append_assoc] at h1
      have := bytes_prefix h3
      have := bytes_snoc (c := '/') (x := pre ++ a')
      omega
  · have hh := regex_head hn
    rcases want_seq (want_action (want_recover (want_rule h))) with ⟨h, -⟩ | ⟨_, _, _, _, h0, -⟩
    · exact want_lit (by exact hc) h
    · obtain ⟨-, -, rfl, -⟩ := ok_lit1.1 h0
      exact (hh _ _ rfl rfl).elim

theorem insideW_here {y : Str} {T : Terminal} {x : Val} (h1 : readWant w = some T) (h2 : T.Begins E y) (h3 : Lit E pre y x) :
    InsideW E pre pre false w := ⟨rfl, [], y, T, by simp, h1, h2, .inl ⟨x, h3⟩⟩

theorem want_bool (hc : ctx.inv = false) (h : Want E ctx (.rule .BoolValue) fr pre s q f w) : InsideW E pre q f w := by
  rcases want_choice (want_action (want_rule h)) with h | ⟨-, -, h | ⟨-, -, h⟩⟩
  · obtain ⟨rfl, rfl, rfl⟩ := want_lit hc h
    exact insideW_here read_false (by simpa using begins_lit (t := "false".toList) (y := [])) .false_
  · obtain ⟨rfl, rfl, rfl⟩ := want_lit hc h
    exact insideW_here read_true (by simpa using begins_lit (t := "true".toList) (y := [])) .true_
  · exact h.elim

theorem want_bare (hc : ctx.inv = false) (h : Want E ctx (.rule .BareValue) fr pre s q f w) : InsideW E pre q f w := by
  have hd := ask_done h.ask
  rcases want_choice (want_rule h) with h | ⟨n1, -, h | ⟨n2, -, h | ⟨n3, -, h | ⟨n4, -, h | ⟨-, -, h⟩⟩⟩⟩⟩
  · exact want_time hc h
  · exact want_ip hc h
  · refine want_float hc h fun n3 => ?_
    rcases hd with ⟨_, _, _, _, hk⟩ | hn
    · obtain ⟨-, _, hk⟩ := ok_rule.1 hk
      simp only [grammar, ok_choice, OkC] at hk
      obtain ⟨-, ⟨_, hk⟩ | ⟨-, ⟨_, hk⟩ | ⟨-, ⟨_, hk⟩ | ⟨-, ⟨_, hk⟩ | ⟨hn, -⟩⟩⟩⟩⟩ := hk
      · exact (hk.clash n1).elim
      · exact (hk.clash n2).elim
      · exact (hk.clash (noR.2 n3)).elim
      · exact .inl ⟨_, _, _, (okR.1 hk).2⟩
      · exact .inr (noR.1 hn)
    · have hn := noR.1 hn
      unfold RuleNo at hn
      simp only [grammar, no_choice, NoC] at hn
      exact .inr (noR.1 hn.2.2.2.1)
  · exact want_int hc h
  · exact want_bool hc h
  · exact h.elim

theorem want_value (hc : ctx.inv = false) (h : Want E ctx (.rule .Value) fr pre s q f w)
    (hs : Stop E ctx (.rule .Value) fr pre s q) : InsideW E pre q f w := by
  have hs := hs.rule
  rw [show grammar .Value = .choice [.action .onValue2 (.label .val (.choice [.rule .QuotedValue, .rule .RegexValue, .rule .BareValue])),
      .action .onValue8 (.plus (.cls [' ', '\n', '\t', '\r'] [] false true "[^ \\n\\t\\r]".toList))] from rfl] at hs
  rcases want_choice (want_rule h) with h | ⟨-, -, h | ⟨-, -, h⟩⟩
  · have hs := (hs.first.action h).label
    rcases want_choice (want_label (want_action h)) with h | ⟨n1, -, h | ⟨-, -, h | ⟨-, -, h⟩⟩⟩
    · obtain ⟨rfl, rfl, rfl⟩ := want_quoted hc h hs.first
      exact insideW_here read_quote (begins_lit (t := ['"'])) lit_empty
    · obtain ⟨rfl, rfl, rfl⟩ := want_regex hc h (hs.next n1).first
      obtain ⟨v, hv⟩ := lit_pattern (E := E) (pre := q)
      exact insideW_here read_slash (begins_lit (t := ['/'])) hv
    · exact want_bare hc h
    · exact h.elim
  · have hd := ask_done h.ask
    obtain ⟨x, y, hr, h1, -⟩ := want_plus (want_action h)
    rcases hd with ⟨_, _, _, _, hk⟩ | hn
    · exfalso
      obtain ⟨_, -, hr⟩ := ok_action.1 hk
      simp only [runAct] at hr
      split at hr
      · cases hr
      · split at hr <;> simp at hr
    · replace hn := no_plus.1 (no_action.1 hn)
      cases hr with
      | nil =>
        obtain ⟨rfl, rfl, rfl⟩ := want_cls hc h1
        rw [List.append_nil]
        exact insideW_here read_ink (cls_begins.2 ⟨'1', [], rfl, by simp [clsMatch]⟩) lit_one
      | cons h2 _ => exact (h2.clash hn).elim
  · exact h.elim

end Aql
