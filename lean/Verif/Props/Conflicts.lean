import Verif.Proofs.Conflicts
import Verif.Props.Satisfiable
/-!
Properties C107 and C108: which comparisons exclude each other, and what follows for queries (nodes.go,
json_values.go:84-112).
-/

namespace Aql

open Spec

variable {E : Env} {root root' : Node} {m m' : Matcher}

/-! ### C107 -/

theorem sat_some_iff (hsp : Spellable E) {cs : List Node} (hp : Named cs) (P : (Node → Prop) → Prop)
    (hP : ∀ h h', (∀ op f vs pos, .expr op f vs pos ∈ cs → (h (.expr op f vs pos) ↔ h' (.expr op f vs pos))) → (P h ↔ P h')) :
    (∃ ms, P (Sat E (.obj ms))) ↔ ∃ holds, P holds ∧ Consistent E cs holds := by
  obtain ⟨sp, hch⟩ := Classical.axiomOfChoice hsp
  constructor
  · rintro ⟨ms, h⟩
    exact ⟨_, h, sat_consistent hp _⟩
  · rintro ⟨holds, h, hc⟩
    obtain ⟨ms, hms⟩ := realised hch hp hc
    exact ⟨ms, (hP _ _ hms).2 h⟩

/-- **C107.** Comparisons exclude each other only within a field, or where one says that a field is missing or null that
the other looks at or below. A query matches some object exactly if its comparisons can be taken to hold or fail so that the
query holds, and each of those that hold has a scalar that those of the same field that fail do not hold of, no field above
is missing, and nothing holds of a null field and below it but that the field is null and exists. -/
theorem C107_conflicts (hsp : Spellable E) (h : Ready E root m) (hp : PathsIn (· ≠ []) root) :
    (∃ ms, Accepts E m (.obj ms)) ↔ ∃ holds, Judged holds root ∧ Consistent E (comparisons root) holds := by
  have hs : ∀ d, Judged (Sat E d) root ↔ Sat E d root := fun d => (sat_iff_judged fun _ _ _ _ _ => Iff.rfl).symm
  rw [exists_congr (accepts_obj h hp), ← exists_congr fun ms => hs _]
  exact sat_some_iff hsp (named_comparisons hp) (Judged · root) fun _ _ => judged_agree

-- values under one name that exclude others, a missing field next to them, and a null one
example : answerOf testEnv "a:1 AND !a:>5 AND b:exists AND !b.c:exists AND !b:null AND d.e:null AND !d.e:false".toList
    (.obj [("a".toList, .arr [.num "1".toList]), ("b".toList, .arr [.arr []]),
      ("d".toList, .arr [.obj [("e".toList, .null)]])]) = some true := by decide +kernel

/-- **C107.** Two kinds of contradictions, whatever the library does: something below a field that is null, or a value of
it; and a whole number that is not below a greater one. -/
theorem C107_contradictions {f g : List Str} {op : Op} {vs : List Val} {p p' q q' : Pos} {i j : Int} {si sj : Str}
    (hf : f ≠ []) (ms : List (Str × Json)) :
    (g ≠ [] ∨ ValueOp op → Ready E (.and (.expr .NUL f [] p) (.expr op (f ++ g) vs p')) m → ¬ Accepts E m (.obj ms)) ∧
    (i < j → |i| ≤ 2 ^ 53 → |j| ≤ 2 ^ 53 →
      Ready E (.and (.expr .EQ f [.int i si q] p) (.not (.expr .LT f [.int j sj q'] p'))) m → ¬ Accepts E m (.obj ms)) := by
  have fg : f ++ g ≠ [] := by simp [hf]
  refine ⟨fun hop hr ha => ?_, fun hij hi hj hr ha => ?_⟩
  · have hs := (accepts_obj hr ⟨hf, fg⟩ ms).1 ha
    have hc := sat_consistent (E := E) (named_comparisons (n := .and (.expr .NUL f [] p) (.expr op (f ++ g) vs p')) ⟨hf, fg⟩)
      (.obj ms)
    have := (hc.null f [] p (by simp [comparisons]) hs.1 op (f ++ g) vs p' (by simp [comparisons]) (List.prefix_append _ _)).1 hs.2
    rcases hop with hop | hop
    · exact hop (by simpa using this.1)
    · exact this.2.elim hop.2 hop.1
  · have hs := (accepts_obj hr ⟨hf, hf⟩ ms).1 ha
    obtain ⟨⟨v, hv, s, hu, he⟩, hn⟩ := hs
    simp only [List.mem_singleton] at hv
    subst hv
    obtain ⟨y, c, hy, hl, x, hx1, hx2⟩ := he
    cases Spec.NumLit.unique hl .int
    refine hn ⟨_, List.mem_singleton.2 rfl, s, hu, .inl ⟨y, _, hy, .int, ?_⟩⟩
    have h1 : toF64 (i : ℚ) = .fin i := by rw [toF64_int (hi.trans (by norm_num)), roundQ_small_int hi]
    have h2 : toF64 (j : ℚ) = .fin j := by rw [toF64_int (hj.trans (by norm_num)), roundQ_small_int hj]
    obtain ⟨a, b, ha, hb, hab⟩ : FLt (.fin (i : ℚ)) (.fin (j : ℚ)) := fLt_double.2 (by exact_mod_cast hij)
    rw [h1, ha] at hx2
    cases hx2
    exact ⟨_, b, hx1, by rw [h2]; exact hb, hab⟩

example : ∃ m m', Ready testEnv (.and (.expr .NUL ["a".toList] [] noPosition)
      (.expr .EXS (["a".toList] ++ ["b".toList]) [] noPosition)) m ∧
    Ready testEnv (.and (.expr .EQ ["a".toList] [.int 1 "1".toList noPosition] noPosition)
      (.not (.expr .LT ["a".toList] [.int 5 "5".toList noPosition] noPosition))) m' := by
  obtain ⟨m1, h1⟩ := ready_of_compiles testEnv (root := .and (.expr .NUL ["a".toList] [] noPosition)
      (.expr .EXS (["a".toList] ++ ["b".toList]) [] noPosition)) (by decide +kernel) ⟨⟨trivial, trivial⟩, by simp [LitsIn]⟩
  obtain ⟨m2, h2⟩ := ready_of_compiles testEnv (root := .and (.expr .EQ ["a".toList] [.int 1 "1".toList noPosition] noPosition)
      (.not (.expr .LT ["a".toList] [.int 5 "5".toList noPosition] noPosition))) (by decide +kernel)
      ⟨⟨trivial, trivial⟩, by simp [LitsIn, LitOk]⟩
  exact ⟨m1, m2, h1, h2⟩

/-! ### C108 -/

/-- **C108.** When one query is narrower than another: unless its own comparisons can be taken to hold so that it holds and
the other fails, with nothing that speaks against it field by field. -/
theorem C108_narrower (hsp : Spellable E) (h : Ready E root m) (hp : PathsIn (· ≠ []) root) (h' : Ready E root' m')
    (hp' : PathsIn (· ≠ []) root') :
    (∀ ms, Accepts E m (.obj ms) → Accepts E m' (.obj ms)) ↔
      ∀ holds, Consistent E (comparisons root ++ comparisons root') holds → Judged holds root → Judged holds root' := by
  have hs : ∀ n d, Judged (Sat E d) n ↔ Sat E d n := fun n d => (sat_iff_judged fun _ _ _ _ _ => Iff.rfl).symm
  have hnamed : Named (comparisons root ++ comparisons root') := by
    intro op f vs pos hm
    rcases List.mem_append.1 hm with hm | hm
    · exact named_comparisons hp _ _ _ _ hm
    · exact named_comparisons hp' _ _ _ _ hm
  have key := sat_some_iff hsp hnamed (fun holds => Judged holds root ∧ ¬ Judged holds root') fun _ _ hag =>
    and_congr (judged_agree fun _ _ _ _ hm => hag _ _ _ _ (List.mem_append.2 (.inl hm)))
      (not_congr (judged_agree fun _ _ _ _ hm => hag _ _ _ _ (List.mem_append.2 (.inr hm))))
  simp only [accepts_obj h hp, accepts_obj h' hp', ← hs]
  constructor
  · intro hall holds hc hj
    by_contra hj'
    obtain ⟨ms, h1, h2⟩ := key.2 ⟨holds, ⟨hj, hj'⟩, hc⟩
    exact h2 (hall ms h1)
  · intro hall ms h1
    by_contra h2
    obtain ⟨holds, ⟨hj, hj'⟩, hc⟩ := key.1 ⟨ms, h1, h2⟩
    exact hj' (hall holds hc hj)

/-- **C108.** A query matches every object exactly if it holds however its comparisons hold or fail consistently. -/
theorem C108_matches_all (hsp : Spellable E) (h : Ready E root m) (hp : PathsIn (· ≠ []) root) :
    (∀ ms, Accepts E m (.obj ms)) ↔ ∀ holds, Consistent E (comparisons root) holds → Judged holds root := by
  have hs : ∀ n d, Judged (Sat E d) n ↔ Sat E d n := fun n d => (sat_iff_judged fun _ _ _ _ _ => Iff.rfl).symm
  have key := sat_some_iff hsp (named_comparisons hp) (fun holds => ¬ Judged holds root) fun _ _ hag =>
    not_congr (judged_agree hag)
  simp only [accepts_obj h hp, ← hs]
  constructor
  · intro hall holds hc
    by_contra hj
    obtain ⟨ms, h⟩ := key.2 ⟨holds, hj, hc⟩
    exact h (hall ms)
  · intro hall ms
    by_contra hj
    obtain ⟨holds, h, hc⟩ := key.1 ⟨ms, hj⟩
    exact h (hall holds hc)

/-- Judgements of queries about different things go together. -/
theorem consistent_both {n n' : Node} (hap : Apart n n') {holds holds' : Node → Prop}
    (hc : Consistent E (comparisons n) holds) (hc' : Consistent E (comparisons n') holds') :
    ∃ both, Consistent E (comparisons n ++ comparisons n') both ∧
      (∀ op f vs pos, .expr op f vs pos ∈ comparisons n → (both (.expr op f vs pos) ↔ holds (.expr op f vs pos))) ∧
      (∀ op f vs pos, .expr op f vs pos ∈ comparisons n' → (both (.expr op f vs pos) ↔ holds' (.expr op f vs pos))) := by
  let both : Node → Prop := fun e => (e ∈ comparisons n ∧ holds e) ∨ (e ∈ comparisons n' ∧ holds' e)
  have hl : ∀ op f vs pos, .expr op f vs pos ∈ comparisons n → (both (.expr op f vs pos) ↔ holds (.expr op f vs pos)) := by
    intro op f vs pos hm
    refine ⟨?_, fun h => .inl ⟨hm, h⟩⟩
    rintro (h | h)
    · exact h.2
    · exact absurd rfl (hap _ _ _ _ _ _ _ _ hm h.1).1
  have hr : ∀ op f vs pos, .expr op f vs pos ∈ comparisons n' → (both (.expr op f vs pos) ↔ holds' (.expr op f vs pos)) := by
    intro op f vs pos hm
    refine ⟨?_, fun h => .inr ⟨hm, h⟩⟩
    rintro (h | h)
    · exact absurd rfl (hap _ _ _ _ _ _ _ _ h.1 hm).1
    · exact h.2
  refine ⟨both, ⟨?_, ?_, ?_⟩, hl, hr⟩
  · intro op f vs pos hm h h1 h2
    rcases List.mem_append.1 hm with hm | hm
    · obtain ⟨s, hs, hme, hall⟩ := hc.value _ _ _ _ hm ((hl _ _ _ _ hm).1 h) h1 h2
      refine ⟨s, hs, hme, fun op' vs' pos' hm' hme' => ?_⟩
      rcases List.mem_append.1 hm' with hm' | hm'
      · exact (hl _ _ _ _ hm').2 (hall _ _ _ hm' hme')
      · exact absurd rfl (hap _ _ _ _ _ _ _ _ hm hm').1
    · obtain ⟨s, hs, hme, hall⟩ := hc'.value _ _ _ _ hm ((hr _ _ _ _ hm).1 h) h1 h2
      refine ⟨s, hs, hme, fun op' vs' pos' hm' hme' => ?_⟩
      rcases List.mem_append.1 hm' with hm' | hm'
      · exact absurd rfl (hap _ _ _ _ _ _ _ _ hm' hm).1
      · exact (hr _ _ _ _ hm').2 (hall _ _ _ hm' hme')
  · intro op f vs pos hm h f' vs' pos' hm' hpre
    rcases List.mem_append.1 hm with hm | hm <;> rcases List.mem_append.1 hm' with hm' | hm'
    · exact (hl _ _ _ _ hm').2 (hc.above _ _ _ _ hm ((hl _ _ _ _ hm).1 h) _ _ _ hm' hpre)
    · exact absurd hpre ((hap _ _ _ _ _ _ _ _ hm hm').2.2 (.inl rfl))
    · exact absurd hpre ((hap _ _ _ _ _ _ _ _ hm' hm).2.1 (.inl rfl))
    · exact (hr _ _ _ _ hm').2 (hc'.above _ _ _ _ hm ((hr _ _ _ _ hm).1 h) _ _ _ hm' hpre)
  · intro f vs pos hm h op' f' vs' pos' hm' hpre
    rcases List.mem_append.1 hm with hm | hm <;> rcases List.mem_append.1 hm' with hm' | hm'
    · exact (hl _ _ _ _ hm').trans (hc.null _ _ _ hm ((hl _ _ _ _ hm).1 h) _ _ _ _ hm' hpre)
    · exact absurd hpre ((hap _ _ _ _ _ _ _ _ hm hm').2.1 (.inr rfl))
    · exact absurd hpre ((hap _ _ _ _ _ _ _ _ hm' hm).2.2 (.inr rfl))
    · exact (hr _ _ _ _ hm').trans (hc'.null _ _ _ hm ((hr _ _ _ _ hm).1 h) _ _ _ _ hm' hpre)

/-- **C108.** Queries about different things do not depend on each other: for every object and every other there is one
that the first query answers as the one and the second as the other. -/
theorem C108_independent (hsp : Spellable E) (h : Ready E root m) (hp : PathsIn (· ≠ []) root) (h' : Ready E root' m')
    (hp' : PathsIn (· ≠ []) root') (hap : Apart root root') (ms ms' : List (Str × Json)) :
    ∃ both, (Accepts E m (.obj both) ↔ Accepts E m (.obj ms)) ∧ (Accepts E m' (.obj both) ↔ Accepts E m' (.obj ms')) := by
  have hs : ∀ n d, Judged (Sat E d) n ↔ Sat E d n := fun n d => (sat_iff_judged fun _ _ _ _ _ => Iff.rfl).symm
  obtain ⟨both, hc, h1, h2⟩ := consistent_both hap (sat_consistent (E := E) (named_comparisons hp) (.obj ms))
    (sat_consistent (E := E) (named_comparisons hp') (.obj ms'))
  have hnamed : Named (comparisons root ++ comparisons root') := by
    intro op f vs pos hm
    rcases List.mem_append.1 hm with hm | hm
    · exact named_comparisons hp _ _ _ _ hm
    · exact named_comparisons hp' _ _ _ _ hm
  obtain ⟨sp, hch⟩ := Classical.axiomOfChoice hsp
  obtain ⟨bs, hbs⟩ := realised hch hnamed hc
  refine ⟨bs, ?_, ?_⟩
  · rw [accepts_obj h hp, accepts_obj h hp, sat_iff_judged (holds := Sat E (.obj ms)) fun op f vs pos hm =>
      (hbs _ _ _ _ (List.mem_append.2 (.inl hm))).trans (h1 _ _ _ _ hm), hs]
  · rw [accepts_obj h' hp', accepts_obj h' hp', sat_iff_judged (holds := Sat E (.obj ms')) fun op f vs pos hm =>
      (hbs _ _ _ _ (List.mem_append.2 (.inr hm))).trans (h2 _ _ _ _ hm), hs]

/-- **C108.** So no query is narrower than another about different things, unless it matches no object or the other
matches all. -/
theorem C108_unrelated (hsp : Spellable E) (h : Ready E root m) (hp : PathsIn (· ≠ []) root) (h' : Ready E root' m')
    (hp' : PathsIn (· ≠ []) root') (hap : Apart root root') :
    (∀ ms, Accepts E m (.obj ms) → Accepts E m' (.obj ms)) ↔
      (∀ ms, ¬ Accepts E m (.obj ms)) ∨ ∀ ms, Accepts E m' (.obj ms) := by
  constructor
  · intro hall
    by_contra hno
    rw [not_or] at hno
    obtain ⟨h1, h2⟩ := hno
    simp only [Classical.not_forall, Classical.not_not] at h1 h2
    obtain ⟨ms, h1⟩ := h1
    obtain ⟨ms', h2⟩ := h2
    obtain ⟨both, hb, hb'⟩ := C108_independent hsp h hp h' hp' hap ms ms'
    exact h2 (hb'.1 (hall both (hb.2 h1)))
  · rintro (hall | hall) ms ha
    · exact absurd ha (hall ms)
    · exact hall ms

-- `a:1` and `NOT a.b:1` are about different things, `a:exists` and `a.b:exists` are not
example : Apart (.expr .EQ ["a".toList] [.int 1 "1".toList noPosition] noPosition)
      (.not (.expr .EQ ["a".toList, "b".toList] [.int 1 "1".toList noPosition] noPosition)) ∧
    ¬ Apart (.expr .EXS ["a".toList] [] noPosition) (.expr .EXS ["a".toList, "b".toList] [] noPosition) := by
  constructor
  · intro op f vs pos op' f' vs' pos' h h'
    simp only [comparisons, List.mem_singleton, Node.expr.injEq] at h h'
    obtain ⟨rfl, rfl, -⟩ := h
    obtain ⟨rfl, rfl, -⟩ := h'
    simp
  · intro h
    exact (h _ _ _ _ _ _ _ _ (List.mem_singleton.2 rfl) (List.mem_singleton.2 rfl)).2.1 (.inl rfl) ⟨["b".toList], rfl⟩

-- `a.b:1` is narrower than `a:exists`
example (hsp : Spellable E) {p p' q : Pos}
    (h : Ready E (.expr .EQ ["a".toList, "b".toList] [.int 1 "1".toList q] p) m)
    (h' : Ready E (.expr .EXS ["a".toList] [] p') m') (ms : List (Str × Json)) :
    Accepts E m (.obj ms) → Accepts E m' (.obj ms) := by
  refine (C108_narrower hsp h (by simp [PathsIn]) h' (by simp [PathsIn])).2 (fun holds hc hj => ?_) ms
  exact hc.above _ _ _ _ (by simp [comparisons]) hj _ _ _ (by simp [comparisons]) ⟨["b".toList], rfl⟩

end Aql
