import Verif.Proofs.WantClause
import Verif.Props.Beginnings
/-!
Property C96: the expectations of a syntax error can be met.
-/

namespace Aql

open Spec

variable (E : Env)

/-! ### C96 -/

/-- **C96**, in part. If a text is rejected for lack of a match at the end of `p`, then each expectation that the
message lists can be met: some query begins with `p` and goes on as expected, or is `p` if the end is expected. Every
query that begins with `p` meets one of them.

Missing: an expectation may be misleading within something that has the shape of a time or a network
(`C96_expectations_can_be_met_refuted`); it is then never met (`C96_expectations_can_be_met_exact`). -/
theorem C96_expectations_can_be_met_partial (p r : Str) (e : PErr)
    (h : grammarOut E (decode (utf8 (p ++ r))) = some (.error e)) (hm : "no match".toList <+: e.msg)
    (hp : e.pos.offset = bytesOf p) :
    ∃ ws m, e.msg = "no match found, expected: ".toList ++ m ∧ Listed ws m ∧
      (∀ w ∈ ws, (∃ t n, Met E w t ∧ Query E (p ++ t) n) ∨ Misled E p w) ∧
      ∀ t n, Query E (p ++ t) n → ∃ w ∈ ws, Met E w t := by
  obtain ⟨q, ws, k, hq, ho, hmsg⟩ := rejected_noMatch E h hm
  rw [ho] at hp
  have hp : q.off = bytesOf p := by exact_mod_cast hp
  obtain ⟨l, d, k1, k2, rfl, rfl⟩ := noMatch_run hq
  obtain ⟨-, -, -, -, -, -, -, hl⟩ := expected_facts k1
  obtain ⟨h1, h2, -, -⟩ := furthest_spec l
  have hgood : ∀ x ∈ (furthest l).2, ∃ f w, x = shownWant f w ∧ Good E p f w := by
    intro x hx
    obtain ⟨f, loc, w, hmk, hoff, rfl⟩ := (h2 x).1 hx
    refine ⟨f, w, rfl, want_start (ctx := ⟨false, []⟩) (fr := []) (s := p ++ r) rfl
      ⟨List.prefix_append _ _, l, .fail d, loc, k1, k2, trivial, ?_, hmk, by rw [hoff, hp]⟩⟩
    intro b p' w' hm'
    have := h1 b p' w' hm'
    rwa [hp] at this
  refine ⟨_, _, hmsg, hl, ?_, ?_⟩
  · intro w hw
    rcases mem_expectedOf.1 hw with ⟨hw, hne⟩ | ⟨rfl, he⟩
    · obtain ⟨f, v, rfl, ⟨rfl, T, t, n, g1, g2, g3⟩ | ⟨rfl, rfl, -⟩ | ⟨rfl, hmis⟩⟩ := hgood _ hw
      · exact .inl ⟨t, n, .inr ⟨T, g1, g2⟩, g3⟩
      · exact (hne rfl).elim
      · exact .inr hmis
    · obtain ⟨f, v, hv, ⟨rfl, T, t, n, g1, g2, g3⟩ | ⟨rfl, rfl, n, hn⟩ | ⟨rfl, hmis⟩⟩ := hgood _ he
      · rw [← show _ = v from hv] at g1
        cases g1
      · exact .inl ⟨[], n, .inl ⟨rfl, rfl⟩, by rw [List.append_nil]; exact hn⟩
      · have hv : ['!', '.'] = v := hv
        subst hv
        rcases hmis with ⟨_, _, _, -, -, -, -, ⟨g1, -⟩ | ⟨T, g1, -⟩, -⟩
        · cases g1
        · cases g1
  · intro t n ht
    have hacc := (grammarOut_iff (E := E)).2 ⟨_, rfl, ht⟩
    unfold grammarOut at hacc
    rcases hv : parse E ((p ++ t).map .ok) with _ | (v | ⟨q, k⟩)
    · rw [hv] at hacc; cases hacc
    · exact expectations_complete hq hp hv
    · rw [hv] at hacc; cases hacc

/-- Digits where the text has a digit and a point. -/
theorem digit_point {a r u : Str} {k : Char} (hk : Dig k) (ha : AllDigits a) (h : a ++ r = k :: '.' :: u) :
    (a = [k] ∧ r = '.' :: u) ∨ ∃ c r', r = c :: r' ∧ Dig c := by
  rcases a with _ | ⟨c1, _ | ⟨c2, a⟩⟩
  · exact .inr ⟨_, _, h, hk⟩
  · cases h; exact .inl ⟨rfl, rfl⟩
  · cases h; exact absurd (ha '.' (by simp)) (by decide)

theorem numeral_big {z : Nat} {c : Char} {u : Str} (h : numeral z = '3' :: '0' :: c :: u) : 255 < z := by
  have h1 := natOfDigits_numeral z
  rw [h] at h1
  have h2 := foldl_digits_ge u (300 + digVal c)
  rw [← h1]
  have h3 : natOfDigits ('3' :: '0' :: c :: u) = u.foldl (fun a c => a * 10 + digVal c) (300 + digVal c) := by
    simp [natOfDigits, show digVal '3' = 3 from by decide, show digVal '0' = 0 from by decide]
  omega

/-- No query begins like this: the last number of the address is too large. -/
theorem no_octet {c : Char} (hc : Dig c) : ¬ Beginning E ("a:1.2.3.30".toList ++ [c]) := by
  rintro ⟨t, n, h⟩
  rw [show "a:1.2.3.30".toList ++ [c] = ['a', ':', '1', '.', '2', '.', '3', '.', '3', '0', c] from rfl] at h
  obtain ⟨pre0, u0, v0, z, hl0, hs0, hr2⟩ :=
    literal_first E (by decide) (by decide) (x := ['.', '2', '.', '3', '.', '3', '0', c]) h
  have nodig : ∀ {c x}, z = c :: x → ¬ Dig c ∧ c ≠ '.' := by
    intro c x hz
    have := hr2 c x hz
    rw [not_not] at this
    rcases this with rfl | rfl | rfl | rfl <;> decide
  have addr : ∀ {u y : Str} {k : Nat}, AddrText u k → (∀ d x, y = d :: x → ¬ Dig d) →
      u ++ y ≠ '1' :: '.' :: '2' :: '.' :: '3' :: '.' :: '3' :: '0' :: c :: t := by
    rintro u y k ⟨w1, w2, w3, w4, -, -, -, hw, rfl, -⟩ hy e
    simp only [List.append_assoc, List.cons_append] at e
    rcases digit_point (by decide) (fun c hc => numeral_dig hc) e with ⟨-, e1⟩ | ⟨_, _, e1, hd⟩
    · rcases digit_point (by decide) (fun c hc => numeral_dig hc) (List.cons.inj e1).2 with ⟨-, e2⟩ | ⟨_, _, e2, hd⟩
      · rcases digit_point (by decide) (fun c hc => numeral_dig hc) (List.cons.inj e2).2 with ⟨-, e3⟩ | ⟨_, _, e3, hd⟩
        · replace e3 := (List.cons.inj e3).2
          generalize hz : numeral w4 = v at e3
          rcases v with _ | ⟨c1, _ | ⟨c2, _ | ⟨c3, v⟩⟩⟩
          · exact numeral_ne_nil _ hz
          · cases e3; exact hy _ _ rfl (by decide)
          · cases e3; exact hy _ _ rfl hc
          · cases e3
            have := numeral_big hz
            omega
        · cases e3; revert hd; decide
      · cases e2; revert hd; decide
    · cases e1; revert hd; decide
  have number : ∀ {m a x : Str}, Minus m → AllDigits a →
      m ++ (a ++ x) = '1' :: '.' :: '2' :: '.' :: '3' :: '.' :: '3' :: '0' :: c :: t →
      x = '.' :: '2' :: '.' :: '3' :: '.' :: '3' :: '0' :: c :: t ∨ ∃ c y, x = c :: y ∧ Dig c := by
    intro m a x hm ha e
    rcases hm with rfl | rfl
    · rcases digit_point (by decide) ha e with ⟨-, e⟩ | h
      · exact .inl e
      · exact .inr h
    · cases e
  have date : ∀ {dt r : Str} {x : Date}, DateText dt x →
      dt ++ r ≠ '1' :: '.' :: '2' :: '.' :: '3' :: '.' :: '3' :: '0' :: c :: t := by
    rintro dt r x ⟨a, b, c', ha, ha4, -, -, -, -, rfl, -⟩ e
    rw [List.append_assoc] at e
    rcases digit_point (by decide) ha e with ⟨rfl, -⟩ | ⟨_, _, e, hd⟩
    · cases ha4
    · cases e; revert hd; decide
  cases hl0 with
  | string _ h => subst h; cases hs0
  | regex _ h => subst h; cases hs0
  | stamp h =>
    obtain ⟨dt, x, n, ct, secs, ft, ns, zt, off, h1, -, -, -, -, -, rfl, -⟩ := h
    rw [List.append_assoc] at hs0
    exact date h1 hs0
  | day h =>
    obtain ⟨x, h1, -, -⟩ := h
    exact date h1 hs0
  | address h => exact addr h (fun d x e => (nodig e).1) hs0
  | block h _ hu =>
    subst hu
    rw [List.append_assoc] at hs0
    exact addr h (fun d x e => by cases e; decide) hs0
  | float hm _ ha2 _ hb2 hu =>
    subst hu
    rw [List.append_assoc, List.append_assoc] at hs0
    rcases number hm ha2 hs0 with e | ⟨_, _, e, hd⟩
    · rw [List.cons_append] at e
      rcases digit_point (by decide) hb2 (List.cons.inj e).2 with ⟨-, e⟩ | ⟨_, _, e, hd⟩
      · exact (nodig e).2 rfl
      · exact (nodig e).1 hd
    · cases e; revert hd; decide
  | int hm _ ha2 hu =>
    subst hu
    rw [List.append_assoc] at hs0
    rcases number hm ha2 hs0 with e | ⟨_, _, e, hd⟩
    · exact (nodig e).2 rfl
    · exact (nodig e).1 hd
  | true_ => cases hs0
  | false_ => cases hs0

/-- **C96**, what is true instead. An expectation that the message lists can be met if and only if it is not misleading:
it is one of a character within something that has the shape of a time or a network, and no literal goes on with such
a character. -/
theorem C96_expectations_can_be_met_exact (p r : Str) (e : PErr)
    (h : grammarOut E (decode (utf8 (p ++ r))) = some (.error e)) (hm : "no match".toList <+: e.msg)
    (hp : e.pos.offset = bytesOf p) :
    ∃ ws m, e.msg = "no match found, expected: ".toList ++ m ∧ Listed ws m ∧
      ∀ w ∈ ws, (∃ t n, Met E w t ∧ Query E (p ++ t) n) ↔ ¬ Misled E p w := by
  obtain ⟨ws, m, h1, h2, h3, -⟩ := C96_expectations_can_be_met_partial E p r e h hm hp
  refine ⟨ws, m, h1, h2, fun w hw => ⟨?_, fun hn => (h3 w hw).resolve_right hn⟩⟩
  rintro ⟨t, n, hm, hq⟩ hs
  exact misled_end hs hm hq

/-- **C96** does not hold in general: after the address `1.2.3.30`, a query, a further digit is listed, though none
can follow. -/
theorem C96_expectations_can_be_met_refuted : ∃ (E : Env) (p r : Str) (e : PErr) (w : Str),
    grammarOut E (decode (utf8 (p ++ r))) = some (.error e) ∧ e.pos.offset = bytesOf p ∧ (∃ n, Query E p n) ∧
      (∃ ws m, e.msg = "no match found, expected: ".toList ++ m ∧ Listed ws m ∧ w ∈ ws) ∧
      ∀ t n, Met E w t → ¬ Query E (p ++ t) n := by
  obtain ⟨e, he, hm, hp⟩ := error_of_lacks testEnv (show lacks testEnv "a:1.2.3.30x".toList =
    some (10, "no match found, expected: \"/\", [ \\n\\t\\r], [0-9] or EOF".toList) by decide +kernel)
  refine ⟨testEnv, "a:1.2.3.30".toList, "x".toList, e, "[0-9]".toList, he, by rw [hp]; decide +kernel, query_of_reads testEnv (by decide +kernel),
    ⟨["\"/\"".toList, "[ \\n\\t\\r]".toList, "[0-9]".toList, "EOF".toList], _, hm,
      .more (by simp) (.more (by simp) .two), by simp⟩, ?_⟩
  rintro t n (⟨h, -⟩ | ⟨T, hT, hb⟩) hq
  · cases h
  · rw [read_digit] at hT
    cases hT
    obtain ⟨c, t', rfl, hc⟩ := cls_begins.1 hb
    exact no_octet testEnv (cls_dig.1 hc) ⟨t', n, by simpa using hq⟩

/-! Each item of the list can be met. -/

example : lacks testEnv "(a:1".toList = some (4, "no match found, expected: \")\", \".\", [ \\n\\t\\r] or [0-9]".toList) ∧
    (∃ n, Query testEnv ("(a:1".toList ++ ")".toList) n) ∧ (∃ n, Query testEnv ("(a:1".toList ++ ".5)".toList) n) ∧
    (∃ n, Query testEnv ("(a:1".toList ++ " )".toList) n) ∧ ∃ n, Query testEnv ("(a:1".toList ++ "5)".toList) n :=
  ⟨by decide +kernel, query_of_reads testEnv (by decide +kernel), query_of_reads testEnv (by decide +kernel),
    query_of_reads testEnv (by decide +kernel), query_of_reads testEnv (by decide +kernel)⟩

/-- The text of the refutation ends within something that has the shape of a network. -/
example : Misled testEnv "a:1.2.3.30".toList "[0-9]".toList := by
  refine ⟨"a:".toList, "1.2.3.30".toList, "0".toList, rfl, due_a testEnv, ?_, by unfold ShapeSign; decide,
    .inr ⟨_, read_digit, cls_begins.2 ⟨_, _, rfl, cls_dig.2 (by decide)⟩⟩, ?_, fun h => by cases h⟩
  · have dg : ∀ {k a}, 1 ≤ a.length → a.length ≤ k → (∀ c ∈ a, Dig c) → Digits k a := fun h1 h2 h3 => by
      unfold Digits
      exact ⟨h1, h2, h3⟩
    exact .inr (.inr ⟨['1'], ['2'], ['3'], "300".toList, [], dg (by decide) (by decide) (by decide), dg (by decide) (by decide) (by decide),
      dg (by decide) (by decide) (by decide), dg (by decide) (by decide) (by decide), .inl rfl, by decide⟩)
  · rintro t v (⟨h, -⟩ | ⟨T, hT, hb⟩) hl
    · cases h
    · rw [read_digit] at hT
      cases hT
      obtain ⟨c, t', rfl, hc⟩ := cls_begins.1 hb
      exact no_octet testEnv (cls_dig.1 hc) (((due_a testEnv).hole _ v hl).cut ⟨t', by simp⟩)

end Aql
