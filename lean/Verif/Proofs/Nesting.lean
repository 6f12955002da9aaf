import Verif.Spec.Nesting
import Verif.Props.Exact
/-!
Lemmas about queries and documents under a name and with other names.
-/

namespace Aql

open Spec

variable {E : Env}

theorem valMessages_quiet {op : Op} {f : List Str} {v : Val} :
    (∃ t, (valMessages E op f v).2 = some (.other t)) ∨ ((valMessages E op f v).2 = none ∧ ReParses E v) := by
  cases v with
  | regex sv src pos =>
    simp only [valMessages, ReParses]
    cases E.reSyntax src with
    | none => exact .inl ⟨_, rfl⟩
    | some r => exact .inr ⟨rfl, rfl⟩
  | _ => exact .inr ⟨rfl, trivial⟩

theorem exprMessages_quiet {op : Op} {f : List Str} (vs : List Val) :
    (∃ t, (exprMessages E op f vs).2 = some (.other t)) ∨
      ((exprMessages E op f vs).2 = none ∧ ∀ v ∈ vs, ReParses E v) := by
  induction vs with
  | nil => exact .inr ⟨rfl, by simp⟩
  | cons v vs ih =>
    have hv := valMessages_quiet (E := E) (op := op) (f := f) (v := v)
    simp only [exprMessages]
    rcases hm : valMessages E op f v with ⟨ms, _ | e⟩
    · rw [hm] at hv
      rcases hv with ⟨t, ht⟩ | ⟨-, hv⟩
      · cases ht
      · rcases ih with ⟨t, ht⟩ | ⟨ht, hi⟩
        · exact .inl ⟨t, ht⟩
        · exact .inr ⟨ht, by simpa using ⟨hv, hi⟩⟩
    · rw [hm] at hv
      rcases hv with ⟨t, ht⟩ | ⟨ht, -⟩
      · exact .inl ⟨t, ht⟩
      · cases ht

theorem messageVisitorFn_quiet (n : Node) : (∃ t, (messageVisitorFn E n).2 = some (.other t)) ∨
    ((messageVisitorFn E n).2 = none ∧ ∀ op f vs p, n = .expr op f vs p → ∀ v ∈ vs, ReParses E v) := by
  cases n with
  | expr op f vs p =>
    rcases exprMessages_quiet (E := E) (op := op) (f := f) vs with h | ⟨h1, h2⟩
    · exact .inl h
    · refine .inr ⟨h1, ?_⟩
      rintro _ _ _ _ ⟨⟩
      exact h2
  | _ => exact .inr ⟨rfl, by intro _ _ _ _ h; cases h⟩

theorem runList_quiet (xs : List (Node × Nat)) : ∀ (s s' : VState Unit),
    runList (messageVisitor E).visit 0 s xs = .ok (s', none) →
      ∀ x ∈ xs, ∀ op f vs p, x.1 = .expr op f vs p → ∀ v ∈ vs, ReParses E v := by
  induction xs with
  | nil => simp
  | cons x xs ih =>
    obtain ⟨n, below⟩ := x
    intro s s' hr
    rw [runList] at hr
    simp only [messageVisitor, Visitor.visit] at hr
    rcases messageVisitorFn_quiet (E := E) n with ⟨t, ht⟩ | ⟨ht, hv⟩
    · rcases hm : messageVisitorFn E n with ⟨ms, _ | e⟩
      · rw [hm] at ht; cases ht
      · rw [hm] at ht hr
        cases ht
        cases hr
    · rcases hm : messageVisitorFn E n with ⟨ms, _ | e⟩
      · rw [hm] at hr
        intro y hy
        rcases List.mem_cons.1 hy with rfl | hy
        · exact hv
        · exact ih _ _ hr y hy
      · rw [hm] at ht; cases ht

theorem litsIn_of_preorder {P : Val → Prop} {n : Node}
    (h : ∀ x ∈ preorder n, ∀ op f vs p, x.1 = .expr op f vs p → ∀ v ∈ vs, P v) : LitsIn P n := by
  induction n with
  | and l r ihl ihr =>
    exact ⟨ihl fun x hx => h x (by simp [preorder, hx]), ihr fun x hx => h x (by simp [preorder, hx])⟩
  | or l r ihl ihr =>
    exact ⟨ihl fun x hx => h x (by simp [preorder, hx]), ihr fun x hx => h x (by simp [preorder, hx])⟩
  | not e ih => exact ih fun x hx => h x (by simp [preorder, hx])
  | subdoc f e ih => exact ih fun x hx => h x (by simp [preorder, hx])
  | expr op f vs p => exact h (.expr op f vs p, 0) (by simp [preorder]) _ _ _ _ rfl

/-- The patterns of a query that has a matcher can be read again for the hints. -/
theorem Ready.reparses {root : Node} {m : Matcher} (h : Ready E root m) : LitsIn (ReParses E) root := by
  obtain ⟨q, msgs, m0, h1, -⟩ := h.compiled
  have hok := h.allOk
  unfold newMatcherFrom at h1
  rw [finishParse_accepted E _ _ _ hok] at h1
  rcases hw : walk (messageVisitor E) ⟨(), fun _ => Tape.new⟩ root with p | ⟨s, _ | e⟩
  · simp only [runVisitors, hw] at h1
    cases h1
  · rw [walk_runList] at hw
    exact litsIn_of_preorder (runList_quiet _ _ _ hw)
  · simp only [runVisitors, hw] at h1
    cases h1

variable {f : List Str → List Str} {n : Node}

theorem allOk_mapPaths (h : AllOk E n) : AllOk E (mapPaths f n) := by
  induction n with
  | and l r ihl ihr => exact ⟨ihl h.1, ihr h.2⟩
  | or l r ihl ihr => exact ⟨ihl h.1, ihr h.2⟩
  | not e ih => exact ih h
  | subdoc p e ih => exact ih h
  | expr => exact h

theorem noSubdoc_mapPaths (h : NoSubdoc n) : NoSubdoc (mapPaths f n) := by
  induction n with
  | and l r ihl ihr => exact ⟨ihl h.1, ihr h.2⟩
  | or l r ihl ihr => exact ⟨ihl h.1, ihr h.2⟩
  | not e ih => exact ih h
  | subdoc p e ih => exact h
  | expr => exact h

theorem litsIn_mapPaths {P : Val → Prop} (h : LitsIn P n) : LitsIn P (mapPaths f n) := by
  induction n with
  | and l r ihl ihr => exact ⟨ihl h.1, ihr h.2⟩
  | or l r ihl ihr => exact ⟨ihl h.1, ihr h.2⟩
  | not e ih => exact ih h
  | subdoc p e ih => exact ih h
  | expr => exact h

theorem pathsIn_mapPaths {P : List Str → Prop} : PathsIn P (mapPaths f n) ↔ PathsIn (fun p => P (f p)) n := by
  induction n with
  | and l r ihl ihr => exact and_congr ihl ihr
  | or l r ihl ihr => exact and_congr ihl ihr
  | not e ih => exact ih
  | subdoc p e ih => exact ih
  | expr => exact Iff.rfl

theorem Spec.PathsIn.imp {P Q : List Str → Prop} (hPQ : ∀ p, P p → Q p) (h : PathsIn P n) : PathsIn Q n := by
  induction n with
  | and l r ihl ihr => exact ⟨ihl h.1, ihr h.2⟩
  | or l r ihl ihr => exact ⟨ihl h.1, ihr h.2⟩
  | not e ih => exact ih h
  | subdoc p e ih => exact ih h
  | expr => exact hPQ _ h

/-- A query with other paths has a matcher if the query has one. -/
theorem Ready.mapPaths {m : Matcher} (h : Ready E n m) (f : List Str → List Str) : ∃ m', Ready E (mapPaths f n) m' :=
  ready_of_allOk (allOk_mapPaths h.allOk) ⟨noSubdoc_mapPaths h.grammar.1, litsIn_mapPaths h.grammar.2⟩
    (litsIn_mapPaths h.reparses)

/-- Queries that mean the same on two documents, up to the paths. -/
theorem sat_mapPaths {d d' : Json} (hp : PathsIn (fun p => (∀ s, ScalarUnder E d p s ↔ ScalarUnder E d' (f p) s) ∧
    ((∃ v, Resolves E d p v) ↔ ∃ v, Resolves E d' (f p) v) ∧
    ((∀ v, Resolves E d p v → v = .null) ↔ ∀ v, Resolves E d' (f p) v → v = .null)) n) :
    Sat E d n ↔ Sat E d' (mapPaths f n) := by
  induction n with
  | and l r ihl ihr => exact and_congr (ihl hp.1) (ihr hp.2)
  | or l r ihl ihr => exact or_congr (ihl hp.1) (ihr hp.2)
  | not e ih => exact not_congr (ih hp)
  | subdoc => exact Iff.rfl
  | expr op p vs pos =>
    obtain ⟨h1, h2, h3⟩ := hp
    cases op <;> simp only [Sat, Spec.mapPaths, h1, h2, h3]

/-- Two matchers answer alike on two documents if their queries mean the same there. -/
theorem match_eq_of_sat {root root' : Node} {m m' : Matcher} {d d' : Json} (h : Ready E root m) (h' : Ready E root' m')
    (hp : PathsIn (Plain d) root) (hp' : PathsIn (Plain d') root') (hs : Sat E d root ↔ Sat E d' root') :
    (m.match E (.valid d)).2 = (m'.match E (.valid d')).2 := by
  obtain ⟨⟨b, hb⟩, h1⟩ := h.answer hp
  obtain ⟨⟨b', hb'⟩, h2⟩ := h'.answer hp'
  rw [hb, hb']
  have := h1.trans (hs.trans h2.symm)
  unfold Accepts at this
  rw [hb, hb'] at this
  congr 1
  simp only [MatchOut.result.injEq] at this
  exact Bool.eq_iff_iff.2 this

theorem plain_object {ms : List (Str × Json)} {p : List Str} (h : p ≠ []) : Plain (.obj ms) p := by
  cases p with
  | nil => exact absurd rfl h
  | cons k rest => exact ⟨k, rest, rfl, by simp⟩

/-! ### under a name -/

variable {ms ms' : List (Str × Json)} {k : Str} {items : List Json}

theorem resolves_under {path : List Str} {v : Json} (hf : FirstMember E ms k (.obj ms')) (hne : path ≠ []) :
    Resolves E (.obj ms) (k :: path) v ↔ Resolves E (.obj ms') path v := by
  cases path with
  | nil => exact absurd rfl hne
  | cons k' path =>
    constructor
    · intro h
      cases h with
      | inObject h1 h2 => cases firstMember_unique hf h1; exact h2
      | inArray h1 => cases firstMember_unique hf h1
    · exact .inObject hf

theorem resolves_elements {path : List Str} {v : Json} (hf : FirstMember E ms k (.arr items)) (hne : path ≠ []) :
    Resolves E (.obj ms) (k :: path) v ↔ ∃ o ∈ items, Resolves E o path v := by
  cases path with
  | nil => exact absurd rfl hne
  | cons k' path =>
    constructor
    · intro h
      cases h with
      | inObject h1 h2 => cases firstMember_unique hf h1
      | inArray h1 h2 h3 => cases firstMember_unique hf h1; exact ⟨_, h2, h3⟩
    · rintro ⟨o, ho, hr⟩
      exact .inArray hf ho hr

theorem scalarUnder_elements {path : List Str} {s : Json} (hf : FirstMember E ms k (.arr items)) (hne : path ≠ []) :
    ScalarUnder E (.obj ms) (k :: path) s ↔ ∃ o ∈ items, ScalarUnder E o path s := by
  simp only [ScalarUnder, resolves_elements hf hne]
  constructor
  · rintro ⟨h1, ⟨o, ho, hr⟩ | ⟨xs, ⟨o, ho, hr⟩, hs⟩⟩
    · exact ⟨o, ho, h1, .inl hr⟩
    · exact ⟨o, ho, h1, .inr ⟨xs, hr, hs⟩⟩
  · rintro ⟨o, ho, h1, hr | ⟨xs, hr, hs⟩⟩
    · exact ⟨h1, .inl ⟨o, ho, hr⟩⟩
    · exact ⟨h1, .inr ⟨xs, ⟨o, ho, hr⟩, hs⟩⟩

/-! ### other names -/

variable {r ρ : Str → Str}

theorem renameItems_eq (xs : List Json) : renameItems r xs = xs.map (renameDoc r) := by
  induction xs with
  | nil => rfl
  | cons x xs ih => rw [renameItems, ih, List.map_cons]

theorem getMember_rename (hr : ∀ raw, E.unescape (r raw) = (E.unescape raw).map ρ) (hρ : Function.Injective ρ) (k : Str)
    (ms : List (Str × Json)) : getMember E (ρ k) (renameMembers r ms) = (getMember E k ms).map (renameDoc r) := by
  induction ms with
  | nil => rfl
  | cons p ms ih =>
    obtain ⟨raw, v⟩ := p
    simp only [renameMembers, getMember, hr]
    cases E.unescape raw with
    | none => rfl
    | some k' =>
      simp only [Option.map_some, hρ.eq_iff]
      split
      · rfl
      · exact ih

theorem firstMember_rename (hr : ∀ raw, E.unescape (r raw) = (E.unescape raw).map ρ) (hρ : Function.Injective ρ) {v' : Json} :
    FirstMember E (renameMembers r ms) (ρ k) v' ↔ ∃ v, FirstMember E ms k v ∧ renameDoc r v = v' := by
  simp only [← getMember_iff, getMember_rename hr hρ, Option.map_eq_some_iff]

theorem renameDoc_obj {d : Json} (h : renameDoc r d = .obj ms') : ∃ ms, d = .obj ms ∧ renameMembers r ms = ms' := by
  cases d <;> rw [renameDoc] at h <;> cases h
  exact ⟨_, rfl, rfl⟩

theorem renameDoc_arr {d : Json} (h : renameDoc r d = .arr items) : ∃ xs, d = .arr xs ∧ xs.map (renameDoc r) = items := by
  cases d <;> rw [renameDoc] at h <;> cases h
  exact ⟨_, rfl, (renameItems_eq _).symm⟩

theorem renameDoc_scalar {d : Json} (h : IsScalar d ∨ IsScalar (renameDoc r d)) : renameDoc r d = d := by
  cases d <;> first | rfl | (rcases h with h | h <;> simp [IsScalar, renameDoc] at h)

theorem resolves_rename (hr : ∀ raw, E.unescape (r raw) = (E.unescape raw).map ρ) (hρ : Function.Injective ρ)
    (path : List Str) : ∀ (d v' : Json), Resolves E (renameDoc r d) (path.map ρ) v' ↔
      ∃ v, Resolves E d path v ∧ renameDoc r v = v' := by
  induction path with
  | nil =>
    intro d v'
    constructor
    · intro h; generalize renameDoc r d = d' at h; cases h
    · rintro ⟨v, h, -⟩; cases h
  | cons k path ih =>
    intro d v'
    constructor
    · intro h
      generalize hd : renameDoc r d = d' at h
      cases path with
      | nil =>
        cases h with
        | last hf =>
          obtain ⟨ms, rfl, rfl⟩ := renameDoc_obj hd
          obtain ⟨v, h1, h2⟩ := (firstMember_rename hr hρ).1 hf
          exact ⟨v, .last h1, h2⟩
      | cons k' path =>
        cases h with
        | inObject hf h2 =>
          obtain ⟨ms, rfl, rfl⟩ := renameDoc_obj hd
          obtain ⟨w, h1, hw⟩ := (firstMember_rename hr hρ).1 hf
          rw [← hw] at h2
          obtain ⟨v, h3, h4⟩ := (ih w v').1 h2
          obtain ⟨ws, rfl, -⟩ := renameDoc_obj hw
          exact ⟨v, .inObject h1 h3, h4⟩
        | inArray hf ho h2 =>
          obtain ⟨ms, rfl, rfl⟩ := renameDoc_obj hd
          obtain ⟨w, h1, hw⟩ := (firstMember_rename hr hρ).1 hf
          obtain ⟨xs, rfl, rfl⟩ := renameDoc_arr hw
          obtain ⟨o, hm, rfl⟩ := List.mem_map.1 ho
          obtain ⟨v, h3, h4⟩ := (ih o v').1 h2
          exact ⟨v, .inArray h1 hm h3, h4⟩
    · rintro ⟨v, h, rfl⟩
      cases h with
      | last hf => rw [renameDoc]; exact .last ((firstMember_rename hr hρ).2 ⟨_, hf, rfl⟩)
      | inObject hf h2 =>
        rw [renameDoc]
        exact .inObject ((firstMember_rename hr hρ).2 ⟨_, hf, by rw [renameDoc]⟩)
          (by rw [← renameDoc.eq_1]; exact (ih _ _).2 ⟨v, h2, rfl⟩)
      | inArray hf ho h2 =>
        rw [renameDoc]
        exact .inArray ((firstMember_rename hr hρ).2 ⟨_, hf, by rw [renameDoc, renameItems_eq]⟩)
          (List.mem_map.2 ⟨_, ho, rfl⟩) ((ih _ _).2 ⟨v, h2, rfl⟩)

theorem scalarUnder_rename (hr : ∀ raw, E.unescape (r raw) = (E.unescape raw).map ρ) (hρ : Function.Injective ρ)
    {path : List Str} {d s : Json} : ScalarUnder E d path s ↔ ScalarUnder E (renameDoc r d) (path.map ρ) s := by
  simp only [ScalarUnder, resolves_rename hr hρ]
  constructor
  · rintro ⟨h1, h2 | ⟨xs, h2, h3⟩⟩
    · exact ⟨h1, .inl ⟨s, h2, renameDoc_scalar (.inl h1)⟩⟩
    · exact ⟨h1, .inr ⟨_, ⟨_, h2, by rw [renameDoc, renameItems_eq]⟩,
        List.mem_map.2 ⟨s, h3, renameDoc_scalar (.inl h1)⟩⟩⟩
  · rintro ⟨h1, ⟨v, h2, rfl⟩ | ⟨xs, ⟨v, h2, h4⟩, h3⟩⟩
    · have he := renameDoc_scalar (.inr h1)
      rw [he] at h1 ⊢
      exact ⟨h1, .inl h2⟩
    · obtain ⟨ys, rfl, rfl⟩ := renameDoc_arr h4
      obtain ⟨y, hy, rfl⟩ := List.mem_map.1 h3
      have he := renameDoc_scalar (.inr h1)
      rw [he] at h1 ⊢
      exact ⟨h1, .inr ⟨ys, h2, hy⟩⟩

end Aql
