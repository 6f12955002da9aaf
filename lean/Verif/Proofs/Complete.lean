import Verif.Proofs.Short
/-!
The expectations of a syntax error are complete: the run over a rejected text, compared with that over an
accepted one.
-/

namespace Aql

open Spec

variable {E : Env}

/-- The words of more than one character. -/
def keyWants : List Str :=
  ["\"AND\"".toList, "\"OR\"".toList, "\"NOT\"".toList, "\"exists\"".toList, "\"null\"".toList, "\"true\"".toList,
    "\"false\"".toList, "\"><\"".toList]

def keyW (w : Str) : Bool :=
  keyWants.contains w || match readWant w with
    | some (.lit k false) => decide (k.length < 2)
    | _ => true

theorem key_grammar (r : Rule) : wantE keyW (fun _ => true) (grammar r) = true := by
  cases r <;> decide +kernel

/-- The expression of a whole query. -/
def queryJob : Job := .expr (.label .query (.rule .Query)) []

theorem name_hit {p r t : Str} {l : List Ev} {c : Char} (h : IdHit p l) (ht : t = c :: r) (hc : c ∈ ['N', 'D', 'R', 'O', 'T']) :
    Hit E p t l := by
  obtain ⟨q, hm, ho⟩ := h
  refine ⟨q, _, .cls ['_', '-'] [('a', 'z'), ('0', '9')] true false, hm, ho, by decide +kernel, c, r, ht, ?_⟩
  have : goLower E c = asciiLower c := goLower_ascii (by
    simp only [List.mem_cons, List.not_mem_nil, or_false] at hc
    rcases hc with rfl | rfl | rfl | rfl | rfl <;> decide)
  simp only [if_true, Bool.false_eq_true, if_false, this]
  right
  refine ⟨('a', 'z'), by simp, ?_⟩
  simp only [List.mem_cons, List.not_mem_nil, or_false] at hc
  rcases hc with rfl | rfl | rfl | rfl | rfl <;> decide

/-- What a word, half written at the end of `p`, leads to. -/
theorem torn_resolved {p r t : Str} {l : List Ev} {res : Res} (h : Big E ⟨false, []⟩ queryJob (cur [] (p ++ r)) l res)
    (hl : errorsOf l = []) (hr : res.Calm) (ht : Torn p r t l) : Hit E p t l ∨ Beyond p l res ∨ Short p l res := by
  obtain ⟨w, p1, k1, k2, t', hm, rfl, rfl, h1, h2, hw⟩ := ht
  have hk := h.wants (P := keyW) (fun r _ => key_grammar r) rfl rfl _ hm
  have hlen : ¬ (k1 ++ k2).length < 2 := by
    cases k1 <;> cases k2 <;> first | contradiction | (simp; omega)
  have hkey : w ∈ keyWants := by
    simp only [Ev.In, keyW, hw, Bool.or_eq_true, List.contains_iff_mem, decide_eq_true_eq, hlen, or_false] at hk
    exact hk
  have hpost : ([] : Str) ++ (p1 ++ k1 ++ r) = p1 ++ (k1 ++ r) := by simp
  have capital : Tailed (p1 ++ k1) → (∃ c u, k2 = c :: u ∧ c ∈ ['N', 'D', 'R', 'O', 'T']) →
      Hit E (p1 ++ k1) (k2 ++ t') l ∨ Beyond (p1 ++ k1) l res ∨ Short (p1 ++ k1) l res := by
    rintro hT ⟨c, u, rfl, hc⟩
    rcases h.stays rfl rfl hT rfl rfl rfl hl hr with k | k | k
    · exact .inr (.inr k)
    · exact .inl (name_hit k (List.cons_append ..) hc)
    · exact .inr (.inl k)
  have word : ∀ {k : Str}, readWant w = some (.lit k false) → k1 ++ k2 = k := by
    intro k hk
    rw [hw] at hk
    cases hk
    rfl
  have head : ∀ {c : Char} {k : Str}, readWant w = some (.lit (c :: k) false) → NoHead (· = c) (k1 ++ r) → False := by
    intro c k hk hn
    have := word hk
    cases k1 with
    | nil => exact h1 rfl
    | cons d k1 =>
      cases this
      exact hn c (k1 ++ r) rfl rfl
  simp only [keyWants, List.mem_cons, List.not_mem_nil, or_false] at hkey
  rcases hkey with rfl | rfl | rfl | rfl | rfl | rfl | rfl | rfl
  · have hk := word (k := ['A', 'N', 'D']) (by decide +kernel)
    rcases k1 with _ | ⟨a, _ | ⟨b, _ | ⟨c, k1⟩⟩⟩
    · exact (h1 rfl).elim
    · cases hk
      exact capital ⟨p1, _, rfl, by decide⟩ ⟨_, _, rfl, by decide⟩
    · cases hk
      exact capital ⟨p1 ++ ['A'], 'N', by simp, by decide⟩ ⟨_, _, rfl, by decide⟩
    · simp only [List.cons_append, List.cons.injEq, List.append_eq_nil_iff] at hk
      exact (h2 hk.2.2.2.2).elim
  · have hk := word (k := ['O', 'R']) (by decide +kernel)
    rcases k1 with _ | ⟨a, _ | ⟨b, k1⟩⟩
    · exact (h1 rfl).elim
    · cases hk
      exact capital ⟨p1, _, rfl, by decide⟩ ⟨_, _, rfl, by decide⟩
    · simp only [List.cons_append, List.cons.injEq, List.append_eq_nil_iff] at hk
      exact (h2 hk.2.2.2).elim
  · have hk := word (k := ['N', 'O', 'T']) (by decide +kernel)
    rcases k1 with _ | ⟨a, _ | ⟨b, _ | ⟨c, k1⟩⟩⟩
    · exact (h1 rfl).elim
    · cases hk
      exact capital ⟨p1, _, rfl, by decide⟩ ⟨_, _, rfl, by decide⟩
    · cases hk
      exact capital ⟨p1 ++ ['N'], 'O', by simp, by decide⟩ ⟨_, _, rfl, by decide⟩
    · simp only [List.cons_append, List.cons.injEq, List.append_eq_nil_iff] at hk
      exact (h2 hk.2.2.2.2).elim
  · exact (head (c := 'e') (k := "xists".toList) (by decide +kernel)
      ((noArg_torn h rfl rfl hl hr hm (by decide +kernel) hpost).1 rfl)).elim
  · exact (head (c := 'n') (k := "ull".toList) (by decide +kernel)
      ((noArg_torn h rfl rfl hl hr hm (by decide +kernel) hpost).2 rfl)).elim
  · exact (head (c := 't') (k := "rue".toList) (by decide +kernel)
      ((bool_torn h rfl rfl hl hr hm (by decide +kernel) hpost).1 rfl)).elim
  · exact (head (c := 'f') (k := "alse".toList) (by decide +kernel)
      ((bool_torn h rfl rfl hl hr hm (by decide +kernel) hpost).2 rfl)).elim
  · have hk := word (k := ['>', '<']) (by decide +kernel)
    rcases k1 with _ | ⟨a, _ | ⟨b, k1⟩⟩
    · exact (h1 rfl).elim
    · cases hk
      rcases bet_torn (t := t') h rfl rfl hl hr hm hpost with k | k
      · exact .inl k
      · exact .inr (.inl k)
    · simp only [List.cons_append, List.cons.injEq, List.append_eq_nil_iff] at hk
      exact (h2 hk.2.2.2).elim

/-! ### Whole runs -/

theorem eof_run {fr : VFrame} {pre s : Str} {l : List Ev} {r : Res} (h : Big E ⟨false, []⟩ (.expr (.rule .EOF) fr) (cur pre s) l r) :
    (∃ d, r = .fail d) ∧ Ev.mark true true (locAt pre s) ['.'] ∈ l ∨ (∃ v c fr, r = .ok v c fr) ∧ s = [] := by
  cases h with
  | rule_ok h =>
    cases h with
    | not_ok h =>
      cases h with
      | any_eof h =>
        refine .inr ⟨⟨_, _, _, rfl⟩, ?_⟩
        cases s
        · rfl
        · cases h
  | rule_stop h hs =>
    cases h with
    | not_ok h => exact hs.elim
    | not_fail h =>
      cases h with
      | any_ok h => exact .inl ⟨⟨_, rfl⟩, by simp [cur]⟩
    | not_panic h => cases h

theorem eof_flat {fr : VFrame} {c : Cursor} {l : List Ev} {r : Res} (h : Big E ⟨false, []⟩ (.expr (.rule .EOF) fr) c l r) :
    MarksAt c.loc l := h.flatten rfl

/-- A run over a text without a match. -/
theorem noMatch_run {s : Str} {q : Loc} {ws : List Str} {k : Option Nat}
    (h : parse E (s.map .ok) = some (.error q ⟨.noMatch ws, k⟩)) :
    ∃ l d, Big E ⟨false, []⟩ (.expr (grammar .Start) []) (cur [] s) l (.fail d) ∧ errorsOf l = [] ∧
      q = (furthest l).1 ∧ ws = expectedOf (furthest l).2 := by
  obtain ⟨l, r0, hb, hd, hp⟩ := parse_big (E := E) (s.map .ok)
  rw [cur_init, encErr_cur, List.nil_append] at hp hd
  rw [cur_init] at hb
  rw [h] at hp
  simp only [Option.some.injEq] at hp
  unfold finish at hp
  split at hp
  · rename_i l' e' tl hl
    cases hp
    have hm : (q, (⟨.noMatch ws, k⟩ : RecErr)) ∈ errorsOf l := by rw [hl]; simp
    obtain ⟨_, _, _, _, -, -, -, -, -, -, hn⟩ := hb.spans (reads_grammar _) rfl _ (mem_errorsOf.1 hm)
    exact absurd rfl (hn ws)
  · cases hp
  · rename_i d hl
    cases hp
    exact ⟨l, d, hb, hl, rfl, rfl⟩
  · cases hp

theorem expectations_complete {p r t : Str} {q : Loc} {ws : List Str} {k : Option Nat} {v : PV}
    (h : parse E ((p ++ r).map .ok) = some (.error q ⟨.noMatch ws, k⟩)) (hq : q.off = bytesOf p)
    (ht : parse E ((p ++ t).map .ok) = some (.value v)) :
    ∃ w ∈ ws, (w = "EOF".toList ∧ t = []) ∨ ∃ T, readWant w = some T ∧ T.Begins E t := by
  obtain ⟨l, d, h1, e1, rfl, rfl⟩ := noMatch_run h
  obtain ⟨-, l2, c2, fr2, h2, e2⟩ := parse_value ht
  rw [cur_init] at h2
  obtain ⟨_, _, -, -, hne, -⟩ := furthest_place h1
  obtain ⟨far, items, -, -⟩ := furthest_spec l
  rw [hq] at far items
  -- the tests at the end of `p`
  have listed : ∀ {q w T}, Ev.mark false false q w ∈ l → q.off = bytesOf p → readWant w = some T →
      w ∈ expectedOf (furthest l).2 := by
    intro q w T hm ho hw
    refine mem_expectedOf.2 (.inl ⟨(items w).2 ⟨false, q, w, hm, ho, rfl⟩, ?_⟩)
    rintro rfl
    cases hw
  have listed_eof : ∀ {q}, Ev.mark true true q ['.'] ∈ l → q.off = bytesOf p → "EOF".toList ∈ expectedOf (furthest l).2 := by
    intro q hm ho
    exact mem_expectedOf.2 (.inr ⟨rfl, (items _).2 ⟨true, q, _, hm, ho, rfl⟩⟩)
  obtain ⟨x, xs, hx⟩ := List.exists_cons_of_ne_nil hne
  obtain ⟨b0, q0, w0, m0, o0, -⟩ := (items x).1 (by rw [hx]; simp)
  -- both runs read a query
  cases h2 with
  | action_stop h2 hs => exact hs.elim
  | action_err h2 _ =>
    rw [errorsOf_cons_tick, errorsOf_append_nil] at e2
    cases e2.2
  | action_ok h2 _ =>
  cases h2 with
  | seq h2 =>
  rw [errorsOf_cons_tick, errorsOf_cons_tick] at e2
  cases h2 with
  | seq_cons a2 h2 =>
  cases h2 with
  | seq_cons b2 h2 =>
  cases h2
  rw [List.append_nil, errorsOf_append_nil] at e2
  have main : ∀ {la ra}, Big E ⟨false, []⟩ queryJob (cur [] (p ++ r)) la ra → errorsOf la = [] → ra.Calm →
      (∀ ev ∈ la, ev ∈ l) → (∀ v a b fr, ra = .ok v (cur a b) fr → Ev.mark true true (locAt a b) ['.'] ∈ l) →
      (∀ b q w, Ev.mark b b q w ∈ l → Ev.mark b b q w ∈ la ∨ ∃ v c fr, ra = .ok v c fr ∧ q = c.loc) →
      ∃ w ∈ expectedOf (furthest l).2, (w = "EOF".toList ∧ t = []) ∨ ∃ T, readWant w = some T ∧ T.Begins E t := by
    intro la ra a1 el cl sub eof all
    have hit : Hit E p t la → ∃ w ∈ expectedOf (furthest l).2, (w = "EOF".toList ∧ t = []) ∨
        ∃ T, readWant w = some T ∧ T.Begins E t := by
      rintro ⟨q, w, T, hm, ho, hw, hT⟩
      exact ⟨w, listed (sub _ hm) ho hw, .inr ⟨T, hw, hT⟩⟩
    have beyond : ¬ Beyond p la ra := by
      rintro (⟨b, q, w, hm, ho⟩ | ⟨v, c, fr, rfl, ho⟩)
      · have := far _ _ _ (sub _ hm)
        omega
      · obtain ⟨u, hu⟩ := a1.ok_adv
        obtain ⟨a, b, -, rfl⟩ := adv_cur hu
        have := far _ _ _ (eof _ _ _ _ rfl)
        rw [locAt_off] at this
        rw [cur_off] at ho
        omega
    have short : ¬ Short p la ra := by
      rintro ⟨hs, hc⟩
      rcases all _ _ _ m0 with hm | ⟨v, c, fr, hr, rfl⟩
      · have := hs _ _ _ hm
        omega
      · have := hc _ _ _ hr
        omega
    rcases a1.align (p := p) (pre := []) rfl rfl rfl rfl (by decide +kernel) a2 rfl el e2.1 cl trivial with hs | hs | hs | hs
    · cases ra with
      | fail _ => exact hs.elim
      | panic _ _ => exact cl.elim
      | ok v1 c1 f1 =>
        obtain ⟨a, b, rfl, rfl, rfl⟩ := hs
        rcases eof_run b2 with ⟨⟨d, h⟩, -⟩ | ⟨-, h⟩
        · cases h
        · obtain ⟨rfl, rfl⟩ := List.append_eq_nil_iff.1 h
          have := eof _ _ _ _ rfl
          exact ⟨_, listed_eof this (by rw [locAt_off]; simp), .inl ⟨rfl, rfl⟩⟩
    · exact hit hs
    · exact (beyond hs).elim
    · rcases torn_resolved a1 el cl hs with k | k | k
      · exact hit k
      · exact (beyond k).elim
      · exact (short k).elim
  cases h1 with
  | action_stop h1 _ =>
  cases h1 with
  | seq h1 =>
  rw [errorsOf_cons_tick, errorsOf_cons_tick] at e1
  cases h1 with
  | seq_fail a1 =>
    exact main a1 e1 trivial (fun ev he => List.mem_cons_of_mem _ (List.mem_cons_of_mem _ he))
      (fun _ _ _ _ h => by cases h) (fun b q w hm => .inl (mem_tick_mark (mem_tick_mark hm)))
  | seq_cons a1 h1 =>
    rw [errorsOf_append_nil] at e1
    cases h1 with
    | seq_cons b1 h1 => cases h1
    | seq_fail b1 =>
    refine main a1 e1.1 trivial (fun ev he => List.mem_cons_of_mem _ (List.mem_cons_of_mem _ (List.mem_append_left _ he))) ?_ ?_
    · intro v a b fr h
      cases h
      rcases eof_run b1 with ⟨-, hm⟩ | ⟨⟨_, _, _, h⟩, -⟩
      · exact List.mem_cons_of_mem _ (List.mem_cons_of_mem _ (List.mem_append_right _ hm))
      · cases h
    · intro b q w hm
      rcases List.mem_append.1 (mem_tick_mark (mem_tick_mark hm)) with hm | hm
      · exact .inl hm
      · exact .inr ⟨_, _, _, rfl, eof_flat b1 _ _ _ _ hm⟩

def foldW (w : Str) : Bool := match readWant w with
  | some (.lit k true) => k.length == 1
  | _ => true

theorem fold_grammar (r : Rule) : wantE foldW (fun _ => true) (grammar r) = true := by
  cases r <;> decide +kernel

/-- Words that ignore case are single characters. -/
theorem fold_single {s : Str} {l : List Ev} {r : Res}
    (h : Big E ⟨false, []⟩ (.expr (grammar .Start) []) (cur [] s) l r) {w k : Str} (hw : w ∈ expectedOf (furthest l).2)
    (hk : readWant w = some (.lit k true)) : k.length = 1 := by
  rcases mem_expectedOf.1 hw with ⟨hw, -⟩ | ⟨rfl, -⟩
  · obtain ⟨b, q, v, hm, -, rfl⟩ := ((furthest_spec l).2.1 w).1 hw
    have := h.wants (P := foldW) (fun r _ => fold_grammar r) (fold_grammar .Start) rfl _ hm
    cases b
    · simp only [Ev.In, foldW, show readWant v = some (.lit k true) from hk, beq_iff_eq] at this
      exact this
    · cases hk
  · cases hk

end Aql
