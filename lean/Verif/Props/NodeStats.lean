import Verif.Spec.Counted
import Verif.Props.Stats
/-!
Property C43: what is counted for the parts of a query, and what of it `Stats` shows.
-/

namespace Aql

open Spec

variable {E : Env}

theorem count_beside (n : BoolNode) (d : Json) (a0 a : Addr) {x y : Bool} (h : x ≠ y) {t : Tick}
    (ht : t.addr = a0 ++ y :: a) : (n.result E d (a0 ++ [x])).1.count t = 0 := by
  rw [List.count_eq_zero]
  intro hm
  obtain ⟨z, hz⟩ := result_addr E n d _ _ hm
  rw [ht, List.append_assoc, List.append_cancel_left_eq] at hz
  exact h (List.cons.inj hz).1

theorem count_above (a0 a : Addr) (x b : Bool) {t : Tick} (ht : t.addr = a0 ++ x :: a) :
    (markTicks a0 b).count t = 0 := by
  rw [List.count_eq_zero]
  intro hm
  have := congrArg List.length ((markTicks_addr hm).symm.trans ht)
  simp at this

open scoped Classical in
/-- 1 for what holds. -/
noncomputable def tally (p : Prop) : Nat := if p then 1 else 0

theorem tally_true {p : Prop} (h : p) : tally p = 1 := if_pos h

theorem tally_false {p : Prop} (h : ¬ p) : tally p = 0 := if_neg h

theorem node_counts {n n' : Node} {a : Addr} (h : At n a n') (hok : AllOk E n) (hns : NoSubdoc n)
    (hl : LitsIn LitOk n) {b : BoolNode} (hb : build E n = .ok b) (d : Json) (hp : PathsIn (Plain d) n)
    (a0 : Addr) :
    (b.result E d a0).1.count (.checked (a0 ++ a)) = tally (LookedAt (Sat E d) n a) ∧
    (b.result E d a0).1.count (.matched (a0 ++ a)) = tally (LookedAt (Sat E d) n a ∧ Sat E d n') := by
  induction h generalizing b a0 with
  | @here n =>
    obtain ⟨b', hb', hs⟩ := build_spec E n hok hns hl
    rw [hb] at hb'; cases hb'
    obtain ⟨r, hr, hi⟩ := hs d hp a0
    have hc := count_self E b d a0
    rw [hr] at hc
    rw [List.append_nil, hc.1, hc.2]
    have : LookedAt (Sat E d) n [] := by cases n <;> trivial
    simp only [this, true_and, ← hi, finished]
    cases r <;> simp [wasTrue, tally]
  | @andL l r n a _ ih =>
    obtain ⟨bl, hbl, hsl⟩ := build_spec E l hok.1 hns.1 hl.1
    obtain ⟨br, hbr, hsr⟩ := build_spec E r hok.2 hns.2 hl.2
    simp only [build, hbl, hbr, Except.ok.injEq] at hb
    subst hb
    obtain ⟨x, hx, hix⟩ := hsl d hp.1 (a0 ++ [false])
    obtain ⟨y, hy, hiy⟩ := hsr d hp.2 (a0 ++ [true])
    have hi := ih hok.1 hns.1 hl.1 hbl hp.1 (a0 ++ [false])
    simp only [List.append_assoc, List.cons_append, List.nil_append] at hi
    have c1 := count_beside (E := E) br d a0 a (x := true) (y := false) (by simp) (t := .checked _) rfl
    have c2 := count_beside (E := E) br d a0 a (x := true) (y := false) (by simp) (t := .matched _) rfl
    have m1 := fun b => count_above a0 a false b (t := .checked _) rfl
    have m2 := fun b => count_above a0 a false b (t := .matched _) rfl
    rcases hL : bl.result E d (a0 ++ [false]) with ⟨t1, e1⟩
    rcases hR : br.result E d (a0 ++ [true]) with ⟨t2, e2⟩
    rw [hL] at hx hi; rw [hR] at hy c1 c2
    dsimp only at hx hy hi c1 c2
    subst hx hy
    simp only [BoolNode.result, hL, hR, LookedAt]
    cases x <;> simp [List.count_append, c1, c2, m1, m2, hi]
  | @andR l r n a _ ih =>
    obtain ⟨bl, hbl, hsl⟩ := build_spec E l hok.1 hns.1 hl.1
    obtain ⟨br, hbr, hsr⟩ := build_spec E r hok.2 hns.2 hl.2
    simp only [build, hbl, hbr, Except.ok.injEq] at hb
    subst hb
    obtain ⟨x, hx, hix⟩ := hsl d hp.1 (a0 ++ [false])
    obtain ⟨y, hy, hiy⟩ := hsr d hp.2 (a0 ++ [true])
    have hi := ih hok.2 hns.2 hl.2 hbr hp.2 (a0 ++ [true])
    simp only [List.append_assoc, List.cons_append, List.nil_append] at hi
    have c1 := count_beside (E := E) bl d a0 a (x := false) (y := true) (by simp) (t := .checked _) rfl
    have c2 := count_beside (E := E) bl d a0 a (x := false) (y := true) (by simp) (t := .matched _) rfl
    have m1 := fun b => count_above a0 a true b (t := .checked _) rfl
    have m2 := fun b => count_above a0 a true b (t := .matched _) rfl
    rcases hL : bl.result E d (a0 ++ [false]) with ⟨t1, e1⟩
    rcases hR : br.result E d (a0 ++ [true]) with ⟨t2, e2⟩
    rw [hL] at hx c1 c2; rw [hR] at hy hi
    dsimp only at hx hy hi c1 c2
    subst hx hy
    simp only [BoolNode.result, hL, hR, LookedAt, ← hix]
    cases x <;> simp [List.count_append, c1, c2, m1, m2, hi, tally_false]
  | @orL l r n a _ ih =>
    obtain ⟨bl, hbl, hsl⟩ := build_spec E l hok.1 hns.1 hl.1
    obtain ⟨br, hbr, hsr⟩ := build_spec E r hok.2 hns.2 hl.2
    simp only [build, hbl, hbr, Except.ok.injEq] at hb
    subst hb
    obtain ⟨x, hx, hix⟩ := hsl d hp.1 (a0 ++ [false])
    obtain ⟨y, hy, hiy⟩ := hsr d hp.2 (a0 ++ [true])
    have hi := ih hok.1 hns.1 hl.1 hbl hp.1 (a0 ++ [false])
    simp only [List.append_assoc, List.cons_append, List.nil_append] at hi
    have c1 := count_beside (E := E) br d a0 a (x := true) (y := false) (by simp) (t := .checked _) rfl
    have c2 := count_beside (E := E) br d a0 a (x := true) (y := false) (by simp) (t := .matched _) rfl
    have m1 := fun b => count_above a0 a false b (t := .checked _) rfl
    have m2 := fun b => count_above a0 a false b (t := .matched _) rfl
    rcases hL : bl.result E d (a0 ++ [false]) with ⟨t1, e1⟩
    rcases hR : br.result E d (a0 ++ [true]) with ⟨t2, e2⟩
    rw [hL] at hx hi; rw [hR] at hy c1 c2
    dsimp only at hx hy hi c1 c2
    subst hx hy
    simp only [BoolNode.result, hL, hR, LookedAt]
    cases x <;> simp [List.count_append, c1, c2, m1, m2, hi]
  | @orR l r n a _ ih =>
    obtain ⟨bl, hbl, hsl⟩ := build_spec E l hok.1 hns.1 hl.1
    obtain ⟨br, hbr, hsr⟩ := build_spec E r hok.2 hns.2 hl.2
    simp only [build, hbl, hbr, Except.ok.injEq] at hb
    subst hb
    obtain ⟨x, hx, hix⟩ := hsl d hp.1 (a0 ++ [false])
    obtain ⟨y, hy, hiy⟩ := hsr d hp.2 (a0 ++ [true])
    have hi := ih hok.2 hns.2 hl.2 hbr hp.2 (a0 ++ [true])
    simp only [List.append_assoc, List.cons_append, List.nil_append] at hi
    have c1 := count_beside (E := E) bl d a0 a (x := false) (y := true) (by simp) (t := .checked _) rfl
    have c2 := count_beside (E := E) bl d a0 a (x := false) (y := true) (by simp) (t := .matched _) rfl
    have m1 := fun b => count_above a0 a true b (t := .checked _) rfl
    have m2 := fun b => count_above a0 a true b (t := .matched _) rfl
    rcases hL : bl.result E d (a0 ++ [false]) with ⟨t1, e1⟩
    rcases hR : br.result E d (a0 ++ [true]) with ⟨t2, e2⟩
    rw [hL] at hx c1 c2; rw [hR] at hy hi
    dsimp only at hx hy hi c1 c2
    subst hx hy
    simp only [BoolNode.result, hL, hR, LookedAt, ← hix]
    cases x <;> simp [List.count_append, c1, c2, m1, m2, hi, tally_false]
  | @not e n a _ ih =>
    obtain ⟨be, hbe, hse⟩ := build_spec E e hok hns hl
    simp only [build, hbe, Except.ok.injEq] at hb
    subst hb
    obtain ⟨x, hx, hix⟩ := hse d hp (a0 ++ [false])
    have hi := ih hok hns hl hbe hp (a0 ++ [false])
    simp only [List.append_assoc, List.cons_append, List.nil_append] at hi
    have m1 := fun b => count_above a0 a false b (t := .checked _) rfl
    have m2 := fun b => count_above a0 a false b (t := .matched _) rfl
    rcases hL : be.result E d (a0 ++ [false]) with ⟨t1, e1⟩
    rw [hL] at hx hi
    dsimp only at hx hi
    subst hx
    simp only [BoolNode.result, hL, LookedAt]
    simp [List.count_append, m1, m2, hi]

theorem after_documents (m : Matcher) (ds : List Doc) (t : Tick) :
    (match t with
      | .checked a => ((m.after E ds).counters a).1
      | .matched a => ((m.after E ds).counters a).2) =
    (match t with | .checked a => (m.counters a).1 | .matched a => (m.counters a).2) +
      ((documents ds).map (fun d => (m.root.result E d []).1.count t)).sum := by
  have : m.after E ds = m.after E ((documents ds).map .valid) := by
    induction ds generalizing m with
    | nil => rfl
    | cons d ds ih =>
      cases d with
      | invalid => exact ih m
      | valid j => exact ih _
  rw [this]
  exact after_counters m (documents ds) t

theorem sum_eq_countP {α : Type} (p : α → Prop) [DecidablePred p] (f : α → Nat) (xs : List α)
    (h : ∀ x ∈ xs, f x = tally (p x)) : (xs.map f).sum = xs.countP (fun x => decide (p x)) := by
  induction xs with
  | nil => rfl
  | cons x xs ih =>
    rw [List.map_cons, List.sum_cons, List.countP_cons, ih fun y hy => h y (List.mem_cons_of_mem _ hy),
      h x List.mem_cons_self]
    by_cases hx : p x <;> simp [hx, tally]; omega

open scoped Classical in
/-- **C43.** The counters that a matcher keeps are right for every part of the query: after any sequence of
calls, the part was checked as often as a document got to it, and matched as often as such a document
satisfied it. -/
theorem C43_counters_exact {q : Str} {root : Node} {m : Matcher} {msgs : List Msg}
    (h : newMatcherFrom E q (.ok root) = .ok (.ok (m, msgs))) (hg : FromGrammar root) (ds : List Doc)
    (hp : ∀ d ∈ documents ds, PathsIn (Plain d) root) {a : List Bool} {n : Node} (ha : At root a n) :
    (m.after E ds).counters a =
      ((documents ds).countP fun d => decide (LookedAt (Sat E d) root a),
       (documents ds).countP fun d => decide (LookedAt (Sat E d) root a ∧ Sat E d n)) := by
  obtain ⟨hok, hb⟩ := newMatcherFrom_ok E h
  have hz : m.counters a = (0, 0) := by
    unfold newMatcherFrom at h
    split at h
    · cases h
    · cases h
    · split at h
      · cases h
      · cases h; rfl
  have hc := fun d hd => node_counts ha hok hg.1 hg.2 hb d (hp d hd) []
  simp only [List.nil_append] at hc
  have h1 := after_documents (E := E) m ds (.checked a)
  have h2 := after_documents (E := E) m ds (.matched a)
  dsimp only at h1 h2
  rw [hz, Nat.zero_add, sum_eq_countP (fun d => LookedAt (Sat E d) root a) _ _ fun d hd => (hc d hd).1] at h1
  rw [hz, Nat.zero_add,
    sum_eq_countP (fun d => LookedAt (Sat E d) root a ∧ Sat E d n) _ _ fun d hd => (hc d hd).2] at h2
  exact Prod.ext h1 h2

/-- **C43.** `Stats` describes the whole query exactly if it is a single comparison: for AND, OR and NOT the
operands are left out (`C43_children_refuted`). -/
theorem C43_shown_exact {q : Str} {root : Node} {m : Matcher} {msgs : List Msg}
    (h : newMatcherFrom E q (.ok root) = .ok (.ok (m, msgs))) (hg : FromGrammar root) (ds : List Doc)
    (hp : ∀ d ∈ documents ds, PathsIn (Plain d) root) :
    (m.after E ds).stats = .ok (fullStats E (documents ds) (fun _ => True) root) ↔
      ∃ op f vs pos, root = .expr op f vs pos := by
  constructor
  · intro hs
    cases root with
    | and l r => rw [fullStats] at hs; exact absurd (C43_children_refuted hs) (by simp)
    | or l r => rw [fullStats] at hs; exact absurd (C43_children_refuted hs) (by simp)
    | not e => rw [fullStats] at hs; exact absurd (C43_children_refuted hs) (by simp)
    | subdoc f e => exact absurd hg.1 (by simp [NoSubdoc])
    | expr op f vs pos => exact ⟨_, _, _, _, rfl⟩
  · rintro ⟨op, f, vs, pos, rfl⟩
    have hc := C43_counters_exact h hg ds hp At.here
    have hb := (newMatcherFrom_ok E h).2
    obtain ⟨hn, hnil⟩ := build_name E hb
    unfold Matcher.stats
    rw [hc]
    have hr := after_root E m ds
    split
    · rename_i e
      rw [hr] at e
      obtain ⟨f, e, h⟩ := hnil e
      cases h
    · rw [hr, hn]
      simp only [toStatsNode, fullStats, rootName, LookedAt, Except.ok.injEq, MatchStats.mk.injEq, true_and,
        and_true]
      exact ⟨by congr, by congr⟩

/-- **C43, the part that holds.** The statistics of a single comparison describe all of it. Missing: queries
with AND, OR and NOT, where the claim is false (`C43_children_refuted`, `C43_shown_exact`). -/
theorem C43_single_comparison_partial {q : Str} {op : Op} {f : List Str} {vs : List Val} {pos : Pos}
    {m : Matcher} {msgs : List Msg} (h : newMatcherFrom E q (.ok (.expr op f vs pos)) = .ok (.ok (m, msgs)))
    (hg : FromGrammar (.expr op f vs pos)) (ds : List Doc) (hp : ∀ d ∈ documents ds, Plain d f) :
    (m.after E ds).stats = .ok (fullStats E (documents ds) (fun _ => True) (.expr op f vs pos)) :=
  (C43_shown_exact h hg ds hp).2 ⟨_, _, _, _, rfl⟩

-- both operands of an AND, after two documents and bytes that are not JSON: the second operand is looked at
-- for one of them
example : ∃ m msgs, newMatcherFrom testEnv [] (.ok (.and (.expr .EXS ["a".toList] [] noPosition)
      (.expr .NUL ["b".toList] [] noPosition))) = .ok (.ok (m, msgs)) ∧
    (m.after testEnv [.valid (.obj [("a".toList, .null)]), .invalid, .valid (.obj [])]).counters [false] = (2, 1) ∧
    (m.after testEnv [.valid (.obj [("a".toList, .null)]), .invalid, .valid (.obj [])]).counters [true] = (1, 0) :=
  ⟨_, _, rfl, by decide +kernel, by decide +kernel⟩

end Aql
