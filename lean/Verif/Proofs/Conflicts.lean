import Verif.Spec.Conflicts
import Verif.Props.Matching
import Verif.Proofs.Satisfiable
/-!
Lemmas about documents with given scalars under given paths and nothing else.
-/

namespace Aql

open Spec

variable {E : Env} {sp : Str → Str}

theorem meets_iff (op : Op) (vs : List Val) (s : Json) : Meets E op vs s ↔ ScalarHolds E op vs s := by
  cases op <;> exact Iff.rfl

/-- What may be put at the end of a path: a scalar, or an array of nothing. -/
def Leaf (w : Json) : Prop := IsScalar w ∨ w = .arr []

theorem Leaf.not_obj {w : Json} (h : Leaf w) (ms : List (Str × Json)) : w ≠ .obj ms := by
  rintro rfl
  rcases h with h | h
  · exact h
  · cases h

theorem Leaf.items {w : Json} (h : Leaf w) {items : List Json} (hw : w = .arr items) : items = [] := by
  subst hw
  rcases h with h | h
  · exact h.elim
  · cases h; rfl

theorem resolves_from_obj {d v : Json} {p : List Str} (h : Resolves E d p v) : ∃ ms, d = .obj ms := by
  cases h <;> exact ⟨_, rfl⟩

theorem resolves_path {d v : Json} {p : List Str} (h : Resolves E d p v) : p ≠ [] := by
  cases h <;> simp

theorem plant_leaf {p : List Str} {w : Json} (hw : Leaf w) {items : List Json} (h : plant sp p w = .arr items) :
    p = [] ∧ w = .arr [] ∧ items = [] := by
  cases p with
  | nil =>
    have h : w = .arr items := h
    have := hw.items h
    subst this
    exact ⟨rfl, h, rfl⟩
  | cons k p => cases h

theorem plant_scalar {p : List Str} {w : Json} (h : IsScalar (plant sp p w)) : p = [] := by
  cases p with
  | nil => rfl
  | cons k p => exact h.elim

theorem plant_member_iff (hsp : ∀ k, E.unescape (sp k) = some k) {k k' : Str} {v w : Json} :
    FirstMember E [(sp k, w)] k' v ↔ k = k' ∧ v = w := by
  rw [← getMember_iff]
  simp only [getMember, hsp]
  split
  · rename_i h; simp [h, eq_comm]
  · rename_i h; simp [h]

theorem plant_iff (hsp : ∀ k, E.unescape (sp k) = some k) {w v : Json} (hw : Leaf w) (q : List Str) : ∀ p,
    Resolves E (plant sp p w) q v ↔ q ≠ [] ∧ ∃ r, p = q ++ r ∧ v = plant sp r w := by
  induction q with
  | nil => exact fun p => ⟨fun h => absurd rfl (resolves_path h), fun h => absurd rfl h.1⟩
  | cons k' q ih =>
    intro p
    cases p with
    | nil =>
      constructor
      · intro h
        obtain ⟨ms, h⟩ := resolves_from_obj h
        exact absurd h (hw.not_obj ms)
      · rintro ⟨-, r, h, -⟩
        cases h
    | cons k p =>
      constructor
      · intro h
        refine ⟨by simp, ?_⟩
        cases h with
        | last hf =>
          obtain ⟨rfl, rfl⟩ := (plant_member_iff hsp).1 hf
          exact ⟨p, rfl, rfl⟩
        | inObject hf hr =>
          obtain ⟨rfl, h⟩ := (plant_member_iff hsp).1 hf
          rw [h] at hr
          obtain ⟨-, r, rfl, hv⟩ := (ih p).1 hr
          exact ⟨r, rfl, hv⟩
        | inArray hf ho =>
          obtain ⟨rfl, h⟩ := (plant_member_iff hsp).1 hf
          rw [(plant_leaf hw h.symm).2.2] at ho
          cases ho
      · rintro ⟨-, r, h, rfl⟩
        obtain ⟨rfl, rfl⟩ : k = k' ∧ p = q ++ r := by simpa using h
        have hf : FirstMember E [(sp k, plant sp (q ++ r) w)] k (plant sp (q ++ r) w) := (plant_member_iff hsp).2 ⟨rfl, rfl⟩
        cases q with
        | nil => exact .last hf
        | cons k' q => exact .inObject hf ((ih _).2 ⟨by simp, r, rfl, rfl⟩)

open Classical in
/-- What is to be found under the name `k`: null if that is all, else an array. -/
noncomputable def crop (sp : Str → Str) (goals : List (List Str × Json)) (k : Str) : Json :=
  if ∀ g ∈ goals, [k] <+: g.1 → g = ([k], .null) then .null else harvest sp goals k

/-- A document with given values under given paths and nothing else. -/
noncomputable def orchard (sp : Str → Str) (goals : List (List Str × Json)) : List (Str × Json) :=
  goals.map fun g => (sp (g.1.headD []), crop sp goals (g.1.headD []))

theorem orchard_member (hsp : ∀ k, E.unescape (sp k) = some k) {goals : List (List Str × Json)}
    (hne : ∀ g ∈ goals, g.1 ≠ []) {k : Str} {v : Json} :
    FirstMember E (orchard sp goals) k v ↔ (∃ g ∈ goals, [k] <+: g.1) ∧ v = crop sp goals k := by
  have key : ∀ (f : Str → Json) (gs : List (List Str × Json)), (∀ g ∈ gs, g.1 ≠ []) →
      (getMember E k (gs.map fun g => (sp (g.1.headD []), f (g.1.headD []))) = some v ↔
        (∃ g ∈ gs, [k] <+: g.1) ∧ v = f k) := by
    intro f gs
    induction gs with
    | nil => simp [getMember]
    | cons g gs ih =>
      intro hgs
      have ih := ih fun g hg => hgs g (List.mem_cons_of_mem _ hg)
      obtain ⟨k', rest, hk⟩ := List.exists_cons_of_ne_nil (hgs g List.mem_cons_self)
      simp only [List.map_cons, getMember, hsp, hk, List.headD_cons]
      split
      · rename_i h
        subst h
        simp [hk, eq_comm]
      · rename_i h
        rw [ih]
        simp [hk, Ne.symm h]
  rw [← getMember_iff]
  exact key (crop sp goals) goals hne

theorem mem_harvest {goals : List (List Str × Json)} {k : Str} {o : Json} :
    o ∈ goals.filterMap (fun g => match g.1 with
      | [] => none
      | k' :: rest => if k' = k then some (plant sp rest g.2) else none) ↔
    ∃ g ∈ goals, ∃ r, g.1 = k :: r ∧ o = plant sp r g.2 := by
  rw [List.mem_filterMap]
  refine exists_congr fun g => and_congr_right fun _ => ?_
  rcases g with ⟨p, w⟩
  cases p with
  | nil => simp
  | cons k' rest =>
    simp only
    constructor
    · intro h
      split at h
      · rename_i hk; subst hk; exact ⟨rest, rfl, by simpa [eq_comm] using h⟩
      · cases h
    · rintro ⟨r, hr, rfl⟩
      cases hr
      simp

theorem crop_null {goals : List (List Str × Json)} {k : Str} :
    crop sp goals k = .null ↔ ∀ g ∈ goals, [k] <+: g.1 → g = ([k], .null) := by
  unfold crop harvest
  split
  · rename_i h; exact ⟨fun _ => h, fun _ => rfl⟩
  · rename_i h; exact ⟨fun h' => (by cases h'), fun h' => absurd h' h⟩

theorem crop_arr {goals : List (List Str × Json)} {k : Str} {items : List Json} (h : crop sp goals k = .arr items) (o : Json) :
    o ∈ items ↔ ∃ g ∈ goals, ∃ r, g.1 = k :: r ∧ o = plant sp r g.2 := by
  unfold crop harvest at h
  split at h
  · cases h
  · cases h; exact mem_harvest

theorem crop_cases (goals : List (List Str × Json)) (k : Str) :
    crop sp goals k = .null ∨ ∃ items, crop sp goals k = .arr items := by
  unfold crop harvest
  split
  · exact .inl rfl
  · exact .inr ⟨_, rfl⟩

variable {goals : List (List Str × Json)}

theorem orchard_one (hsp : ∀ k, E.unescape (sp k) = some k) (hg : ∀ g ∈ goals, g.1 ≠ [] ∧ Leaf g.2) {k : Str} {v : Json} :
    Resolves E (.obj (orchard sp goals)) [k] v ↔ (∃ g ∈ goals, [k] <+: g.1) ∧ v = crop sp goals k := by
  rw [← orchard_member hsp fun g h => (hg g h).1]
  exact ⟨fun h => (by cases h with | last h => exact h), .last⟩

theorem orchard_more (hsp : ∀ k, E.unescape (sp k) = some k) (hg : ∀ g ∈ goals, g.1 ≠ [] ∧ Leaf g.2) {k k' : Str}
    {q : List Str} {v : Json} :
    Resolves E (.obj (orchard sp goals)) (k :: k' :: q) v ↔
      ∃ g ∈ goals, ∃ r, g.1 = k :: k' :: q ++ r ∧ v = plant sp r g.2 := by
  constructor
  · intro h
    cases h with
    | inObject hf hr =>
      have h := ((orchard_member hsp fun g h => (hg g h).1).1 hf).2
      rcases crop_cases (sp := sp) goals k with h' | ⟨items, h'⟩ <;> rw [h'] at h <;> cases h
    | inArray hf ho hr =>
      have h := ((orchard_member hsp fun g h => (hg g h).1).1 hf).2
      obtain ⟨g, hm, r, h1, rfl⟩ := (crop_arr h.symm _).1 ho
      obtain ⟨-, r', rfl, hv⟩ := (plant_iff hsp (hg g hm).2 _ _).1 hr
      exact ⟨g, hm, r', h1, hv⟩
  · rintro ⟨g, hm, r, h1, rfl⟩
    have hpre : [k] <+: g.1 := ⟨k' :: q ++ r, by rw [h1]; rfl⟩
    rcases crop_cases (sp := sp) goals k with h' | ⟨items, h'⟩
    · have := crop_null.1 h' g hm hpre
      rw [this] at h1
      cases h1
    · exact .inArray ((orchard_member hsp fun g h => (hg g h).1).2 ⟨⟨g, hm, hpre⟩, h'.symm⟩)
        ((crop_arr h' _).2 ⟨g, hm, _, h1, rfl⟩) ((plant_iff hsp (hg g hm).2 _ _).2 ⟨by simp, r, rfl, rfl⟩)

theorem orchard_resolves (hsp : ∀ k, E.unescape (sp k) = some k) (hg : ∀ g ∈ goals, g.1 ≠ [] ∧ Leaf g.2) {f : List Str}
    (hf : f ≠ []) : (∃ v, Resolves E (.obj (orchard sp goals)) f v) ↔ ∃ g ∈ goals, f <+: g.1 := by
  match f, hf with
  | [k], _ => simp only [orchard_one hsp hg]; exact ⟨fun ⟨_, h, _⟩ => h, fun h => ⟨_, h, rfl⟩⟩
  | k :: k' :: q, _ =>
    simp only [orchard_more hsp hg]
    exact ⟨fun ⟨_, g, hm, r, h, _⟩ => ⟨g, hm, r, h.symm⟩, fun ⟨g, hm, r, h⟩ => ⟨_, g, hm, r, h.symm, rfl⟩⟩

theorem orchard_scalar (hsp : ∀ k, E.unescape (sp k) = some k) (hg : ∀ g ∈ goals, g.1 ≠ [] ∧ Leaf g.2) {f : List Str}
    (hf : f ≠ []) {s : Json} : ScalarUnder E (.obj (orchard sp goals)) f s ↔ IsScalar s ∧ (f, s) ∈ goals := by
  refine and_congr_right fun hs => ?_
  match f, hf with
  | [k], _ =>
    constructor
    · rintro (h | ⟨items, h, hi⟩)
      · obtain ⟨⟨g, hm, hp⟩, h⟩ := (orchard_one hsp hg).1 h
        rcases crop_cases (sp := sp) goals k with h' | ⟨items, h'⟩
        · rw [h'] at h
          subst h
          have := crop_null.1 h' g hm hp
          rwa [← this]
        · rw [h'] at h
          subst h
          exact hs.elim
      · obtain ⟨-, h⟩ := (orchard_one hsp hg).1 h
        obtain ⟨g, hm, r, h1, rfl⟩ := (crop_arr h.symm _).1 hi
        have := plant_scalar hs
        subst this
        rwa [show ([k], plant sp [] g.2) = g from Prod.ext h1.symm rfl]
    · intro hm
      have hp : ∃ g ∈ goals, [k] <+: g.1 := ⟨_, hm, List.prefix_rfl⟩
      rcases crop_cases (sp := sp) goals k with h' | ⟨items, h'⟩
      · have := crop_null.1 h' _ hm List.prefix_rfl
        cases this
        exact .inl ((orchard_one hsp hg).2 ⟨hp, h'.symm⟩)
      · exact .inr ⟨items, (orchard_one hsp hg).2 ⟨hp, h'.symm⟩, (crop_arr h' _).2 ⟨_, hm, [], rfl, rfl⟩⟩
  | k :: k' :: q, _ =>
    constructor
    · rintro (h | ⟨items, h, hi⟩)
      · obtain ⟨g, hm, r, h1, rfl⟩ := (orchard_more hsp hg).1 h
        have := plant_scalar hs
        subst this
        rwa [show (k :: k' :: q, plant sp [] g.2) = g from Prod.ext (by rw [h1, List.append_nil]) rfl]
      · obtain ⟨g, hm, r, h1, h⟩ := (orchard_more hsp hg).1 h
        rw [(plant_leaf (hg g hm).2 h.symm).2.2] at hi
        cases hi
    · intro hm
      exact .inl ((orchard_more hsp hg).2 ⟨_, hm, [], by simp, rfl⟩)

theorem orchard_null (hsp : ∀ k, E.unescape (sp k) = some k) (hg : ∀ g ∈ goals, g.1 ≠ [] ∧ Leaf g.2) {f : List Str}
    (hf : f ≠ []) : (∀ v, Resolves E (.obj (orchard sp goals)) f v → v = .null) ↔
      ∀ g ∈ goals, f <+: g.1 → g = (f, .null) := by
  match f, hf with
  | [k], _ =>
    simp only [orchard_one hsp hg]
    constructor
    · intro h g hm hp
      exact crop_null.1 (h _ ⟨⟨g, hm, hp⟩, rfl⟩) g hm hp
    · rintro h _ ⟨-, rfl⟩
      exact crop_null.2 h
  | k :: k' :: q, _ =>
    simp only [orchard_more hsp hg]
    constructor
    · rintro h g hm ⟨r, hr⟩
      have h' := h _ ⟨g, hm, r, hr.symm, rfl⟩
      have : r = [] := plant_scalar (sp := sp) (w := g.2) (by rw [h']; trivial)
      subst this
      exact Prod.ext (by simpa using hr.symm) h'
    · rintro h _ ⟨g, hm, r, h1, rfl⟩
      have := h g hm ⟨r, h1.symm⟩
      subst this
      have : r = [] := by simpa using h1
      subst this
      rfl

/-! ### documents in general -/

theorem resolves_above {d v : Json} {p q : List Str} (h : Resolves E d (p ++ q) v) (hp : p ≠ []) :
    ∃ v', Resolves E d p v' ∧ (q ≠ [] → v' ≠ .null) := by
  induction p generalizing d with
  | nil => exact absurd rfl hp
  | cons k p ih =>
    match p, q, h with
    | [], [], h => exact ⟨v, h, fun h => absurd rfl h⟩
    | [], _ :: _, .inObject hf _ => exact ⟨_, .last hf, fun _ h => by cases h⟩
    | [], _ :: _, .inArray hf _ _ => exact ⟨_, .last hf, fun _ h => by cases h⟩
    | k' :: p, q, .inObject hf hr =>
      obtain ⟨v', h1, h2⟩ := ih hr (by simp)
      exact ⟨v', .inObject hf h1, h2⟩
    | k' :: p, q, .inArray hf ho hr =>
      obtain ⟨v', h1, h2⟩ := ih hr (by simp)
      exact ⟨v', .inArray hf ho h1, h2⟩

theorem sat_resolves {d : Json} {op : Op} {f : List Str} {vs : List Val} {pos : Pos} (h : Sat E d (.expr op f vs pos)) :
    ∃ v, Resolves E d f v := by
  by_cases h1 : op = .EXS
  · subst h1; exact h
  by_cases h2 : op = .NUL
  · subst h2; exact h.1
  obtain ⟨s, ⟨-, hs⟩, -⟩ := (sat_value E d ⟨h1, h2⟩).1 h
  rcases hs with hs | ⟨items, hs, -⟩
  · exact ⟨_, hs⟩
  · exact ⟨_, hs⟩

/-- The comparisons of the list have paths that are not empty. -/
def Named (cs : List Node) : Prop := ∀ op f vs pos, .expr op f vs pos ∈ cs → f ≠ []

theorem sat_consistent {cs : List Node} (hp : Named cs) (d : Json) : Consistent E cs (Sat E d) where
  value op f vs pos _ h h1 h2 := by
    obtain ⟨s, hs, hm⟩ := (sat_value E d ⟨h1, h2⟩).1 h
    refine ⟨s, hs.1, (meets_iff _ _ _).2 hm, fun op' vs' pos' _ hm' => ?_⟩
    rw [meets_iff] at hm'
    refine (sat_value E d ⟨?_, ?_⟩).2 ⟨s, hs, hm'⟩ <;> rintro rfl <;> exact hm'
  above op f vs pos hm h f' vs' pos' hm' hpre := by
    obtain ⟨v, hv⟩ := sat_resolves h
    obtain ⟨q, rfl⟩ := hpre
    obtain ⟨v', h, -⟩ := resolves_above hv (hp _ _ _ _ hm')
    exact ⟨v', h⟩
  null f vs pos hm h op' f' vs' pos' hm' hpre := by
    constructor
    · intro h'
      obtain ⟨v, hv⟩ := sat_resolves h'
      obtain ⟨q, rfl⟩ := hpre
      obtain ⟨v', h1, h2⟩ := resolves_above hv (hp _ _ _ _ hm)
      have hq : q = [] := by
        by_contra hq
        exact h2 hq (h.2 _ h1)
      subst hq
      refine ⟨by simp, ?_⟩
      by_contra hop
      rw [not_or] at hop
      rw [List.append_nil] at h'
      obtain ⟨s, ⟨hsc, hs⟩, hholds⟩ := (sat_value E d ⟨hop.2, hop.1⟩).1 h'
      rcases hs with hs | ⟨items, hs, -⟩
      · rw [h.2 _ hs] at hholds
        exact scalarHolds_not_null E _ _ hholds
      · cases h.2 _ hs
    · rintro ⟨rfl, rfl | rfl⟩
      · exact h
      · exact h.1

theorem choices {α β : Type} {P : α → Prop} {R : α → β → Prop} : ∀ cs : List α, (∀ e ∈ cs, P e → ∃ g, R e g) →
    ∃ goals : List β, (∀ e ∈ cs, P e → ∃ g ∈ goals, R e g) ∧ ∀ g ∈ goals, ∃ e ∈ cs, P e ∧ R e g := by
  intro cs
  induction cs with
  | nil => exact fun _ => ⟨[], by simp, by simp⟩
  | cons e cs ih =>
    intro h
    obtain ⟨goals, h1, h2⟩ := ih fun e he => h e (List.mem_cons_of_mem _ he)
    by_cases hP : P e
    · obtain ⟨g, hg⟩ := h e List.mem_cons_self hP
      refine ⟨g :: goals, fun e' he' hP' => ?_, fun g' hg' => ?_⟩
      · rcases List.mem_cons.1 he' with rfl | he'
        · exact ⟨g, List.mem_cons_self, hg⟩
        · obtain ⟨g', hm, hr⟩ := h1 e' he' hP'
          exact ⟨g', List.mem_cons_of_mem _ hm, hr⟩
      · rcases List.mem_cons.1 hg' with rfl | hg'
        · exact ⟨e, List.mem_cons_self, hP, hg⟩
        · obtain ⟨e', he', hr⟩ := h2 g' hg'
          exact ⟨e', List.mem_cons_of_mem _ he', hr⟩
    · refine ⟨goals, fun e' he' hP' => ?_, fun g' hg' => ?_⟩
      · rcases List.mem_cons.1 he' with rfl | he'
        · exact absurd hP' hP
        · exact h1 e' he' hP'
      · obtain ⟨e', he', hr⟩ := h2 g' hg'
        exact ⟨e', List.mem_cons_of_mem _ he', hr⟩

/-- What is put under the path of a comparison that is to hold. -/
def Wanted (E : Env) (cs : List Node) (holds : Node → Prop) : Node → List Str × Json → Prop
  | .expr op f vs _, g => g.1 = f ∧
    match op with
    | .NUL => g.2 = .null
    | .EXS => (g.2 = .null ∧ ∃ vs pos, .expr .NUL f vs pos ∈ cs ∧ holds (.expr .NUL f vs pos)) ∨
        (g.2 = .arr [] ∧ ∀ vs pos, .expr .NUL f vs pos ∈ cs → ¬ holds (.expr .NUL f vs pos))
    | op => IsScalar g.2 ∧ Meets E op vs g.2 ∧
        ∀ op' vs' pos', .expr op' f vs' pos' ∈ cs → Meets E op' vs' g.2 → holds (.expr op' f vs' pos')
  | _, _ => False

theorem wanted_value {cs : List Node} {holds : Node → Prop} {op : Op} {f : List Str} {vs : List Val} {pos : Pos}
    {g : List Str × Json} (h1 : op ≠ .EXS) (h2 : op ≠ .NUL) : Wanted E cs holds (.expr op f vs pos) g ↔
      g.1 = f ∧ IsScalar g.2 ∧ Meets E op vs g.2 ∧
        ∀ op' vs' pos', .expr op' f vs' pos' ∈ cs → Meets E op' vs' g.2 → holds (.expr op' f vs' pos') := by
  cases op <;> first | exact Iff.rfl | contradiction

theorem realised (hsp : ∀ k, E.unescape (sp k) = some k) {cs : List Node} {holds : Node → Prop} (hp : Named cs)
    (hc : Consistent E cs holds) :
    ∃ ms, ∀ op f vs pos, .expr op f vs pos ∈ cs → (Sat E (.obj ms) (.expr op f vs pos) ↔ holds (.expr op f vs pos)) := by
  obtain ⟨goals, hw, hg⟩ := choices (P := fun e => holds e ∧ ∃ op f vs pos, e = .expr op f vs pos)
    (R := Wanted E cs holds) cs (by
      rintro e he ⟨hh, op, f, vs, pos, rfl⟩
      by_cases h1 : op = .EXS
      · subst h1
        by_cases hn : ∃ vs pos, .expr .NUL f vs pos ∈ cs ∧ holds (.expr .NUL f vs pos)
        · exact ⟨(f, .null), rfl, .inl ⟨rfl, hn⟩⟩
        · exact ⟨(f, .arr []), rfl, .inr ⟨rfl, fun vs pos hm h => hn ⟨vs, pos, hm, h⟩⟩⟩
      by_cases h2 : op = .NUL
      · subst h2
        exact ⟨(f, .null), rfl, rfl⟩
      obtain ⟨s, hs⟩ := hc.value op f vs pos he hh h1 h2
      exact ⟨(f, s), (wanted_value h1 h2).2 ⟨rfl, hs⟩⟩)
  -- every goal comes from a comparison that is to hold
  have hback : ∀ g ∈ goals, ∃ op vs pos, .expr op g.1 vs pos ∈ cs ∧ holds (.expr op g.1 vs pos) ∧
      Wanted E cs holds (.expr op g.1 vs pos) g := by
    intro g hm
    obtain ⟨e, he, ⟨hh, op, f, vs, pos, rfl⟩, hR⟩ := hg g hm
    have : g.1 = f := hR.1
    subst this
    exact ⟨op, vs, pos, he, hh, hR⟩
  have hnull : ∀ f, (f, Json.null) ∈ goals → ∃ vs pos, .expr .NUL f vs pos ∈ cs ∧ holds (.expr .NUL f vs pos) := by
    intro f hm
    obtain ⟨op, vs, pos, he, hh, hR⟩ := hback _ hm
    by_cases h1 : op = .EXS
    · subst h1
      rcases hR.2 with h | ⟨h, -⟩
      · exact h.2
      · cases h
    by_cases h2 : op = .NUL
    · subst h2
      exact ⟨vs, pos, he, hh⟩
    have := ((wanted_value h1 h2).1 hR).2.2.1
    rw [meets_iff] at this
    exact absurd this (scalarHolds_not_null E _ _)
  have hleaf : ∀ g ∈ goals, g.1 ≠ [] ∧ Leaf g.2 := by
    intro g hm
    obtain ⟨op, vs, pos, he, hh, hR⟩ := hback _ hm
    refine ⟨hp _ _ _ _ he, ?_⟩
    by_cases h1 : op = .EXS
    · subst h1
      rcases hR.2 with ⟨h, -⟩ | ⟨h, -⟩
      · exact .inl (by rw [h]; trivial)
      · exact .inr h
    by_cases h2 : op = .NUL
    · subst h2
      exact .inl (by rw [show g.2 = .null from hR.2]; trivial)
    exact .inl ((wanted_value h1 h2).1 hR).2.1
  refine ⟨orchard sp goals, fun op f vs pos he => ?_⟩
  have hf := hp _ _ _ _ he
  have hres := orchard_resolves (E := E) hsp hleaf hf
  by_cases h1 : op = .EXS
  · subst h1
    refine Iff.trans hres ⟨?_, fun hh => ?_⟩
    · rintro ⟨g, hm, hpre⟩
      obtain ⟨op', vs', pos', he', hh, -⟩ := hback _ hm
      exact hc.above _ _ _ _ he' hh _ _ _ he hpre
    · obtain ⟨g, hm, hR⟩ := hw _ he ⟨hh, _, _, _, _, rfl⟩
      exact ⟨g, hm, by rw [show g.1 = f from hR.1]⟩
  by_cases h2 : op = .NUL
  · subst h2
    refine Iff.trans (and_congr hres (orchard_null hsp hleaf hf)) ⟨?_, fun hh => ?_⟩
    · rintro ⟨⟨g, hm, hpre⟩, hall⟩
      have := hall g hm hpre
      subst this
      obtain ⟨vs', pos', he', hh⟩ := hnull f hm
      exact (hc.null _ _ _ he' hh _ _ _ _ he List.prefix_rfl).2 ⟨rfl, .inl rfl⟩
    · obtain ⟨g, hm, hR⟩ := hw _ he ⟨hh, _, _, _, _, rfl⟩
      refine ⟨⟨g, hm, by rw [show g.1 = f from hR.1]⟩, fun g' hm' hpre => ?_⟩
      obtain ⟨op', vs', pos', he', hh', hR'⟩ := hback _ hm'
      obtain ⟨h1', h2'⟩ := (hc.null _ _ _ he hh _ _ _ _ he' hpre).1 hh'
      refine Prod.ext h1' ?_
      rcases h2' with rfl | rfl
      · exact hR'.2
      · rcases hR'.2 with ⟨h, -⟩ | ⟨-, h⟩
        · exact h
        · rw [h1'] at h
          exact absurd hh (h _ _ he)
  rw [sat_value E _ ⟨h1, h2⟩]
  constructor
  · rintro ⟨s, hs, hm⟩
    obtain ⟨hsc, hmem⟩ := (orchard_scalar hsp hleaf hf).1 hs
    obtain ⟨op', vs', pos', he', hh', hR'⟩ := hback _ hmem
    rw [← meets_iff] at hm
    by_cases h1' : op' = .EXS
    · subst h1'
      rcases hR'.2 with ⟨h, -⟩ | ⟨h, -⟩
      · rw [show s = .null from h, meets_iff] at hm
        exact absurd hm (scalarHolds_not_null E _ _)
      · rw [show s = .arr [] from h] at hsc
        exact hsc.elim
    by_cases h2' : op' = .NUL
    · subst h2'
      rw [show s = .null from hR'.2, meets_iff] at hm
      exact absurd hm (scalarHolds_not_null E _ _)
    exact ((wanted_value h1' h2').1 hR').2.2.2 _ _ _ he hm
  · intro hh
    obtain ⟨g, hm, hR⟩ := hw _ he ⟨hh, _, _, _, _, rfl⟩
    obtain ⟨hg1, hsc, hmeets, -⟩ := (wanted_value h1 h2).1 hR
    refine ⟨g.2, (orchard_scalar hsp hleaf hf).2 ⟨hsc, ?_⟩, (meets_iff _ _ _).1 hmeets⟩
    rwa [← hg1]

theorem named_comparisons {n : Node} (h : PathsIn (· ≠ []) n) : Named (comparisons n) := by
  induction n with
  | and l r ihl ihr | or l r ihl ihr =>
    intro op f vs pos hm
    rcases List.mem_append.1 hm with hm | hm
    · exact ihl h.1 _ _ _ _ hm
    · exact ihr h.2 _ _ _ _ hm
  | not e ih => exact ih h
  | subdoc _ e ih => exact ih h
  | expr op f vs pos =>
    intro op' f' vs' pos' hm
    simp only [comparisons, List.mem_singleton] at hm
    cases hm
    exact h

theorem sat_iff_judged {d : Json} {holds : Node → Prop} {n : Node}
    (h : ∀ op f vs pos, .expr op f vs pos ∈ comparisons n → (Sat E d (.expr op f vs pos) ↔ holds (.expr op f vs pos))) :
    Sat E d n ↔ Judged holds n := by
  induction n with
  | and l r ihl ihr =>
    exact and_congr (ihl fun _ _ _ _ hm => h _ _ _ _ (List.mem_append.2 (.inl hm)))
      (ihr fun _ _ _ _ hm => h _ _ _ _ (List.mem_append.2 (.inr hm)))
  | or l r ihl ihr =>
    exact or_congr (ihl fun _ _ _ _ hm => h _ _ _ _ (List.mem_append.2 (.inl hm)))
      (ihr fun _ _ _ _ hm => h _ _ _ _ (List.mem_append.2 (.inr hm)))
  | not e ih => exact not_congr (ih h)
  | subdoc => exact Iff.rfl
  | expr op f vs pos => exact h op f vs pos (by simp [comparisons])

theorem judged_agree {P Q : Node → Prop} {n : Node}
    (h : ∀ op f vs pos, .expr op f vs pos ∈ comparisons n → (P (.expr op f vs pos) ↔ Q (.expr op f vs pos))) :
    Judged P n ↔ Judged Q n := by
  induction n with
  | and l r ihl ihr =>
    exact and_congr (ihl fun _ _ _ _ hm => h _ _ _ _ (List.mem_append.2 (.inl hm)))
      (ihr fun _ _ _ _ hm => h _ _ _ _ (List.mem_append.2 (.inr hm)))
  | or l r ihl ihr =>
    exact or_congr (ihl fun _ _ _ _ hm => h _ _ _ _ (List.mem_append.2 (.inl hm)))
      (ihr fun _ _ _ _ hm => h _ _ _ _ (List.mem_append.2 (.inr hm)))
  | not e ih => exact not_congr (ih h)
  | subdoc => exact Iff.rfl
  | expr op f vs pos => exact h op f vs pos (by simp [comparisons])

end Aql
