import Verif.Proofs.PegInv
import Verif.Proofs.Utf8
import Verif.Spec.Text
/-!
The outcome of a parse: positions, encoding, recorded errors.
-/

namespace Aql

variable {E : Env}

/-- The texts of symbols. -/
def runes (t : List Sym) : Str := t.map Sym.rune

/-- Is the character under the cursor a newline? -/
def atNewline : List Sym → Prop
  | .ok '\n' :: _ => True
  | _ => False

theorem Loc.step_newline (a b d : Nat) (u : List Sym) : Loc.step a b d (.ok '\n' :: u) = ⟨a + 1, 0, d⟩ :=
  rfl

theorem Loc.step_other (a b d : Nat) {u : List Sym} (h : ¬ atNewline u) :
    Loc.step a b d u = ⟨a, b + 1, d⟩ := by
  unfold Loc.step
  split
  · exact absurd trivial h
  · rfl

theorem atNewline_iff {u : List Sym} : atNewline u ↔ ∃ v, u = .ok '\n' :: v := by
  constructor
  · intro h
    unfold atNewline at h
    split at h
    · exact ⟨_, rfl⟩
    · exact h.elim
  · rintro ⟨v, rfl⟩; trivial

/-- The position of a cursor reached by reading `t` from the start. -/
def LocIs (t : List Sym) (c : Cursor) : Prop :=
  c.loc.off = (t.map Sym.width).sum ∧
    (atNewline c.rest → c.loc.line = Spec.lineOf (runes t) + 1 ∧ c.loc.col = 0) ∧
    (¬ atNewline c.rest → c.loc.line = Spec.lineOf (runes t) ∧ c.loc.col = Spec.colOf (runes t))

theorem locIs_init (input : List Sym) : LocIs [] (.init input) := by
  unfold LocIs Cursor.init
  dsimp only
  by_cases h : atNewline input
  · obtain ⟨v, rfl⟩ := atNewline_iff.1 h
    rw [Loc.step_newline]
    exact ⟨rfl, fun _ => ⟨rfl, rfl⟩, fun h' => absurd h h'⟩
  · rw [Loc.step_other _ _ _ h]
    exact ⟨rfl, fun h' => absurd h' h, fun _ => ⟨rfl, rfl⟩⟩

theorem rune_newline {s : Sym} : s.rune = '\n' ↔ s = .ok '\n' := by
  cases s with
  | ok c => simp [Sym.rune]
  | bad b =>
    simp only [Sym.rune, reduceCtorEq, iff_false]
    decide

theorem LocIs.next {t : List Sym} {c : Cursor} {s : Sym} {u : List Sym} (h : LocIs t c)
    (hr : c.rest = s :: u) : LocIs (t ++ [s]) c.next := by
  obtain ⟨h1, h2, h3⟩ := h
  unfold LocIs Cursor.next runes
  rw [hr] at h2 h3 ⊢
  simp only [List.map_append, List.sum_append, List.map_cons, List.map_nil, List.sum_cons,
    List.sum_nil, Spec.lineOf_snoc, Spec.colOf_snoc, rune_newline]
  have key : c.loc.line = (if s = .ok '\n' then Spec.lineOf (runes t) + 1 else Spec.lineOf (runes t)) ∧
      c.loc.col + 1 = if s = .ok '\n' then 1 else Spec.colOf (runes t) + 1 := by
    by_cases hs : s = .ok '\n'
    · subst hs
      obtain ⟨h4, h5⟩ := h2 trivial
      rw [if_pos rfl, if_pos rfl, h4, h5]
      exact ⟨rfl, rfl⟩
    · have : ¬ atNewline (s :: u) := by
        intro hn
        obtain ⟨v, hv⟩ := atNewline_iff.1 hn
        cases hv
        exact hs rfl
      obtain ⟨h4, h5⟩ := h3 this
      rw [if_neg hs, if_neg hs, h4, h5]
      exact ⟨rfl, rfl⟩
  by_cases h : atNewline u
  · obtain ⟨v, rfl⟩ := atNewline_iff.1 h
    rw [Loc.step_newline]
    exact ⟨by simp [h1], fun _ => ⟨congrArg (· + 1) key.1, rfl⟩, fun h' => absurd h h'⟩
  · rw [Loc.step_other _ _ _ h]
    exact ⟨by simp [h1], fun h' => absurd h' h, fun _ => key⟩

theorem LocIs.adv {c c' : Cursor} {t : List Sym} (ha : Adv c t c') :
    ∀ {p : List Sym}, LocIs p c → LocIs (p ++ t) c' := by
  induction ha with
  | refl => intro p h; simpa using h
  | step hr _ ih =>
    intro p h
    have := ih (h.next hr)
    simpa using this

/-- Every position from the start of the input. -/
theorem locFrom_init {input : List Sym} {p : Loc} (h : LocFrom (.init input) p) :
    ∃ pre post, input = pre ++ post ∧ p.off = (pre.map Sym.width).sum ∧
      (atNewline post → p.line = Spec.lineOf (runes pre) + 1 ∧ p.col = 0) ∧
      (¬ atNewline post → p.line = Spec.lineOf (runes pre) ∧ p.col = Spec.colOf (runes pre)) := by
  obtain ⟨t, c', ha, rfl⟩ := h
  obtain ⟨h1, h2, h3⟩ := LocIs.adv ha (locIs_init input)
  exact ⟨t, c'.rest, ha.rest, h1, h2, h3⟩

theorem furthest_from {c : Cursor} {log : List Ev} (h : ∀ ev ∈ log, ev.From c) :
    (furthest log).1 = ⟨1, 1, 0⟩ ∨ LocFrom c (furthest log).1 := by
  have key : ∀ (log : List Ev) (s : Loc × List Str), (∀ ev ∈ log, ev.From c) →
      (s.1 = ⟨1, 1, 0⟩ ∨ LocFrom c s.1) →
      ((log.foldl failAt s).1 = ⟨1, 1, 0⟩ ∨ LocFrom c (log.foldl failAt s).1) := by
    intro log
    induction log with
    | nil => intro s _ hs; exact hs
    | cons ev log ih =>
      intro s hl hs
      refine ih _ (fun e he => hl e (List.mem_cons_of_mem _ he)) ?_
      have hev := hl ev (List.mem_cons_self ..)
      cases ev with
      | tick => exact hs
      | err p e => exact hs
      | mark fail inv p w =>
        unfold failAt
        dsimp only
        split
        · split
          · exact hs
          · dsimp only
            split
            · exact Or.inr hev
            · exact hs
        · exact hs
  exact key log _ h (Or.inl rfl)

theorem mem_errorsOf {log : List Ev} {p : Loc} {e : RecErr} :
    (p, e) ∈ errorsOf log ↔ Ev.err p e ∈ log := by
  unfold errorsOf
  rw [List.mem_filterMap]
  constructor
  · rintro ⟨ev, h1, h2⟩
    cases ev with
    | err p' e' => cases h2; exact h1
    | tick => cases h2
    | mark a b p w => cases h2
  · intro h; exact ⟨_, h, rfl⟩

/-- The parse as a derivation. -/
theorem parse_big (input : List Sym) : ∃ l r,
    Big E ⟨false, []⟩ (.expr (grammar .Start) []) (.init input) l r ∧
    runStart E input = .done (encErr (.init input) ++ l) r ∧
    parse E input = some (finish (encErr (.init input) ++ l) r) := by
  obtain ⟨l, r, h, hb⟩ := runStart_done (E := E) input
  refine ⟨l, r, hb, h, ?_⟩
  unfold parse
  rw [h]

/-- An accepted text is read to its end without a recorded error. -/
theorem parse_value {input : List Sym} {v : PV} (h : parse E input = some (.value v)) :
    HeadOk (.init input) ∧ ∃ l c' fr,
      Big E ⟨false, []⟩ (.expr (grammar .Start) []) (.init input) l (.ok v c' fr) ∧
      errorsOf l = [] := by
  obtain ⟨l, r, hb, _, hp⟩ := parse_big (E := E) input
  rw [h] at hp
  simp only [Option.some.injEq] at hp
  unfold finish at hp
  split at hp
  · cases hp
  · rename_i c' fr hl _
    simp only [ParseOut.value.injEq] at hp
    subst hp
    rw [errorsOf_append, List.append_eq_nil_iff] at hl
    exact ⟨headOk_of_encErr hl.1, l, c', fr, hb, hl.2⟩
  · cases hp
  · cases hp

theorem start_eof {ctx : Ctx} {fr fr' : VFrame} {c c' : Cursor} {l : List Ev} {v : PV}
    (h : Big E ctx (.expr (grammar .Start) fr) c l (.ok v c' fr')) : c'.rest = [] := by
  have key : ∀ {fr v acc fr' c d st l},
      Big E ctx (.seq st [.rule .EOF] acc fr) c l (.ok v d fr') → d.rest = [] := by
    intro fr v acc fr' c d st l h
    cases h with
    | seq_cons h1 h2 =>
      cases h2
      cases h1 with
      | rule_ok h1 =>
        dsimp only [grammar] at h1
        cases h1 with
        | not_ok h1 =>
          cases h1 with
          | any_eof h => exact h
      | rule_stop _ hs => exact hs.elim
  dsimp only [grammar] at h
  cases h with
  | action_ok h _ =>
    cases h with
    | seq h => cases h with | seq_cons _ h => exact key h
  | action_err h _ =>
    cases h with
    | seq h => cases h with | seq_cons _ h => exact key h
  | action_stop h hs => exact hs.elim

/-- All symbols of an accepted text decode. -/
theorem parse_value_ok {input : List Sym} {v : PV} (h : parse E input = some (.value v)) :
    ∀ s ∈ input, s.IsOk := by
  obtain ⟨hh, l, c', fr, hb, he⟩ := parse_value h
  obtain ⟨t, ha, hc⟩ := hb.inv.2
  have := ha.rest
  rw [start_eof hb, List.append_nil] at this
  change input = t at this
  rw [this]
  exact (hc he hh).2

theorem all_ok {input : List Sym} (h : ∀ s ∈ input, s.IsOk) : ∃ s : Str, input = s.map Sym.ok := by
  induction input with
  | nil => exact ⟨[], rfl⟩
  | cons x xs ih =>
    obtain ⟨s, rfl⟩ := ih fun y hy => h y (List.mem_cons_of_mem _ hy)
    obtain ⟨c, rfl⟩ := h x (List.mem_cons_self ..)
    exact ⟨c :: s, rfl⟩

end Aql
