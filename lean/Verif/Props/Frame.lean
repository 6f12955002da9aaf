import Verif.Props.Matching
import Verif.Props.Numbers
/-!
Property C38: what in a document can influence a match.
-/

namespace Aql

open Spec

/-- The member names can all be read and are pairwise different. -/
def DistinctKeys (E : Env) (ms : List (Str × Json)) : Prop :=
  ∃ ks : List Str, ms.map (fun p => E.unescape p.1) = ks.map some ∧ ks.Nodup

/-- Documents that differ only in the order of array elements, the order of members (of objects with
distinct member names), and in members whose names are in `K`, anywhere. -/
inductive Similar (E : Env) (K : Str → Prop) : Json → Json → Prop
  | refl (a) : Similar E K a a
  | symm {a b} : Similar E K a b → Similar E K b a
  | trans {a b c} : Similar E K a b → Similar E K b c → Similar E K a c
  | arrPerm {xs ys} : xs.Perm ys → Similar E K (.arr xs) (.arr ys)
  | objPerm {ms ns} : DistinctKeys E ms → ms.Perm ns → Similar E K (.obj ms) (.obj ns)
  | addMember {pre raw k v post} : E.unescape raw = some k → K k →
      Similar E K (.obj (pre ++ post)) (.obj (pre ++ (raw, v) :: post))
  | inArr {pre a b post} : Similar E K a b →
      Similar E K (.arr (pre ++ a :: post)) (.arr (pre ++ b :: post))
  | inObj {pre raw a b post} : Similar E K a b →
      Similar E K (.obj (pre ++ (raw, a) :: post)) (.obj (pre ++ (raw, b) :: post))

variable {E : Env} {K : Str → Prop}

theorem Similar.isArr {a b : Json} (h : Similar E K a b) : a.isArr = b.isArr := by
  induction h with
  | refl => rfl
  | symm _ ih => exact ih.symm
  | trans _ _ h1 h2 => exact h1.trans h2
  | arrPerm | objPerm | addMember | inArr | inObj => rfl

theorem Similar.scalar {a b : Json} (h : Similar E K a b) : (IsScalar a ∨ IsScalar b) → a = b := by
  induction h with
  | refl => exact fun _ => rfl
  | symm _ ih => exact fun h => (ih h.symm).symm
  | trans _ _ h1 h2 =>
    rintro (h | h)
    · have e := h1 (.inl h); subst e; exact h2 (.inl h)
    · have e := h2 (.inr h); subst e; exact h1 (.inr h)
  | arrPerm | objPerm | addMember | inArr | inObj => rintro (h | h) <;> exact absurd h (by simp [IsScalar])

/-- In an object with distinct names, a member is found iff it is there. -/
theorem firstMember_distinct {ms : List (Str × Json)} (h : DistinctKeys E ms) (k : Str) (v : Json) :
    FirstMember E ms k v ↔ ∃ raw, (raw, v) ∈ ms ∧ E.unescape raw = some k := by
  constructor
  · rintro ⟨pre, raw, post, rfl, hk, _⟩; exact ⟨raw, by simp, hk⟩
  · rintro ⟨raw, hm, hk⟩
    obtain ⟨pre, post, rfl⟩ := List.append_of_mem hm
    refine ⟨pre, raw, post, rfl, hk, ?_⟩
    obtain ⟨ks, he, hn⟩ := h
    rw [List.map_append, List.map_cons] at he
    obtain ⟨l1, l2, rfl, e1, e2⟩ := List.map_eq_append_iff.1 he.symm
    obtain ⟨x, l3, rfl, e3, e4⟩ := List.map_eq_cons_iff.1 e2
    rw [hk] at e3
    cases e3
    intro p hp
    have : E.unescape p.1 ∈ pre.map (fun p => E.unescape p.1) := List.mem_map_of_mem hp
    rw [← e1] at this
    obtain ⟨y, hy, hy'⟩ := List.mem_map.1 this
    refine ⟨y, hy'.symm, ?_⟩
    rintro rfl
    rw [List.nodup_append] at hn
    exact hn.2.2 y hy y (by simp) rfl

theorem DistinctKeys.perm {ms ns : List (Str × Json)} (h : DistinctKeys E ms) (hp : ms.Perm ns) :
    DistinctKeys E ns := by
  obtain ⟨ks, he, hn⟩ := h
  have h1 : (ns.map (fun p => E.unescape p.1)).Perm (ks.map some) := by
    rw [← he]; exact (hp.map _).symm
  have : ∃ ks' : List Str, ns.map (fun p => E.unescape p.1) = ks'.map some ∧ ks'.Perm ks := by
    have hall : ∀ o ∈ ns.map (fun p => E.unescape p.1), ∃ k, o = some k := by
      intro o ho
      have := h1.subset ho
      obtain ⟨k, _, rfl⟩ := List.mem_map.1 this
      exact ⟨k, rfl⟩
    generalize ns.map (fun p => E.unescape p.1) = os at h1 hall
    have : ∃ ks' : List Str, os = ks'.map some := by
      clear h1
      induction os with
      | nil => exact ⟨[], rfl⟩
      | cons o os ih =>
        obtain ⟨k, rfl⟩ := hall o (by simp)
        obtain ⟨ks', rfl⟩ := ih (fun x hx => hall x (by simp [hx]))
        exact ⟨k :: ks', rfl⟩
    obtain ⟨ks', rfl⟩ := this
    refine ⟨ks', rfl, ?_⟩
    have := h1.filterMap id
    simpa [List.filterMap_map] using this
  obtain ⟨ks', e, hp'⟩ := this
  exact ⟨ks', e, hp'.nodup_iff.2 hn⟩

theorem firstMember_perm {ms ns : List (Str × Json)} (h : DistinctKeys E ms) (hp : ms.Perm ns)
    {k : Str} {v : Json} (hf : FirstMember E ms k v) : FirstMember E ns k v := by
  rw [firstMember_distinct h] at hf
  rw [firstMember_distinct (h.perm hp)]
  obtain ⟨raw, hm, hk⟩ := hf
  exact ⟨raw, hp.subset hm, hk⟩

theorem firstMember_add {pre post : List (Str × Json)} {raw k0 : Str} {v0 : Json}
    (hr : E.unescape raw = some k0) {k : Str} (hk : k ≠ k0) {v : Json} :
    FirstMember E (pre ++ post) k v ↔ FirstMember E (pre ++ (raw, v0) :: post) k v := by
  simp only [← getMember_iff]
  induction pre with
  | nil => simp [getMember, hr, Ne.symm hk]
  | cons p pre ih =>
    obtain ⟨r, w⟩ := p
    simp only [List.cons_append, getMember]
    cases E.unescape r with
    | none => simp
    | some k' =>
      dsimp only
      split
      · rfl
      · exact ih

theorem firstMember_replace {pre post : List (Str × Json)} {raw : Str} {a b : Json} {k : Str}
    {w : Json} (h : FirstMember E (pre ++ (raw, a) :: post) k w) :
    FirstMember E (pre ++ (raw, b) :: post) k w ∨
      (w = a ∧ FirstMember E (pre ++ (raw, b) :: post) k b) := by
  simp only [← getMember_iff] at h ⊢
  induction pre with
  | nil =>
    simp only [List.nil_append, getMember] at h ⊢
    cases hu : E.unescape raw with
    | none => rw [hu] at h; cases h
    | some k' =>
      rw [hu] at h
      dsimp only at h ⊢
      by_cases e : k' = k
      · rw [if_pos e] at h ⊢
        cases h; exact .inr ⟨rfl, rfl⟩
      · rw [if_neg e] at h ⊢
        exact .inl h
  | cons p pre ih =>
    obtain ⟨r, x⟩ := p
    simp only [List.cons_append, getMember] at h ⊢
    cases hu : E.unescape r with
    | none => rw [hu] at h; cases h
    | some k' =>
      rw [hu] at h
      dsimp only at h ⊢
      by_cases e : k' = k
      · rw [if_pos e] at h ⊢
        exact .inl h
      · rw [if_neg e] at h ⊢
        exact ih h

/-- What one document lets the other find. -/
def Carries (E : Env) (K : Str → Prop) (a b : Json) : Prop :=
  (∀ path v, (∀ k ∈ path, ¬ K k) → Resolves E a path v →
    ∃ v', Similar E K v v' ∧ Resolves E b path v') ∧
  (∀ xs, a = .arr xs → ∃ ys, b = .arr ys ∧ ∀ x ∈ xs, ∃ y ∈ ys, Similar E K x y ∧
    ∀ path v, (∀ k ∈ path, ¬ K k) → Resolves E x path v →
      ∃ v', Similar E K v v' ∧ Resolves E y path v')

theorem Carries.trans {a b c : Json} (h1 : Carries E K a b) (h2 : Carries E K b c) :
    Carries E K a c := by
  constructor
  · intro path v hp hr
    obtain ⟨v1, s1, r1⟩ := h1.1 path v hp hr
    obtain ⟨v2, s2, r2⟩ := h2.1 path v1 hp r1
    exact ⟨v2, s1.trans s2, r2⟩
  · rintro xs rfl
    obtain ⟨ys, rfl, hy⟩ := h1.2 xs rfl
    obtain ⟨zs, rfl, hz⟩ := h2.2 ys rfl
    refine ⟨zs, rfl, fun x hx => ?_⟩
    obtain ⟨y, hym, sy, ry⟩ := hy x hx
    obtain ⟨z, hzm, sz, rz⟩ := hz y hym
    refine ⟨z, hzm, sy.trans sz, fun path v hp hr => ?_⟩
    obtain ⟨v1, s1, r1⟩ := ry path v hp hr
    obtain ⟨v2, s2, r2⟩ := rz path v1 hp r1
    exact ⟨v2, s1.trans s2, r2⟩

theorem Carries.refl (a : Json) : Carries E K a a :=
  ⟨fun _ v _ hr => ⟨v, .refl v, hr⟩, fun xs h => ⟨xs, h, fun x hx => ⟨x, hx, .refl x,
    fun _ v _ hr => ⟨v, .refl v, hr⟩⟩⟩⟩

theorem resolves_obj {ms ns : List (Str × Json)} {path : List Str} {v : Json}
    (hf : ∀ k w, k ∈ path → FirstMember E ms k w → FirstMember E ns k w)
    (hr : Resolves E (.obj ms) path v) : Resolves E (.obj ns) path v := by
  cases hr with
  | last h => exact .last (hf _ _ (by simp) h)
  | inObject h h' => exact .inObject (hf _ _ (by simp) h) h'
  | inArray h ho h' => exact .inArray (hf _ _ (by simp) h) ho h'

theorem carries_obj {ms ns : List (Str × Json)}
    (hf : ∀ k w, ¬ K k → FirstMember E ms k w → FirstMember E ns k w) :
    Carries E K (.obj ms) (.obj ns) :=
  ⟨fun _ v hp hr => ⟨v, .refl v, resolves_obj (fun k w hk => hf k w (hp k hk)) hr⟩,
    fun _ h => by cases h⟩

theorem carries_arr {xs ys : List Json}
    (h : ∀ x ∈ xs, ∃ y ∈ ys, Similar E K x y ∧ Carries E K x y) : Carries E K (.arr xs) (.arr ys) :=
by
  constructor
  · intro _ _ _ hr; cases hr
  · intro zs hz
    cases hz
    refine ⟨ys, rfl, fun x hx => ?_⟩
    obtain ⟨y, hy, sy, cy⟩ := h x hx
    exact ⟨y, hy, sy, cy.1⟩

theorem carries_inArr {pre post : List Json} {a b : Json} (hs : Similar E K a b)
    (h : Carries E K a b) : Carries E K (.arr (pre ++ a :: post)) (.arr (pre ++ b :: post)) := by
  refine carries_arr fun x hx => ?_
  rcases List.mem_append.1 hx with hx | hx
  · exact ⟨x, by simp [hx], .refl x, .refl x⟩
  · rcases List.mem_cons.1 hx with rfl | hx
    · exact ⟨b, by simp, hs, h⟩
    · exact ⟨x, by simp [hx], .refl x, .refl x⟩

theorem carries_inObj {pre post : List (Str × Json)} {raw : Str} {a b : Json} (hs : Similar E K a b)
    (h : Carries E K a b) :
    Carries E K (.obj (pre ++ (raw, a) :: post)) (.obj (pre ++ (raw, b) :: post)) := by
  refine ⟨fun path v hp hr => ?_, fun _ h => by cases h⟩
  cases hr with
  | last hf =>
    rcases firstMember_replace (b := b) hf with hf' | ⟨rfl, hf'⟩
    · exact ⟨v, .refl v, .last hf'⟩
    · exact ⟨b, hs, .last hf'⟩
  | inObject hf hr =>
    rcases firstMember_replace (b := b) hf with hf' | ⟨rfl, hf'⟩
    · exact ⟨v, .refl v, .inObject hf' hr⟩
    · obtain ⟨v', sv, rv⟩ := h.1 _ v (fun k hk => hp k (by simp [hk])) hr
      refine ⟨v', sv, ?_⟩
      cases b with
      | obj ms => exact .inObject hf' rv
      | _ => cases rv
  | inArray hf ho hr =>
    rcases firstMember_replace (b := b) hf with hf' | ⟨rfl, hf'⟩
    · exact ⟨v, .refl v, .inArray hf' ho hr⟩
    · obtain ⟨ys, rfl, hy⟩ := h.2 _ rfl
      obtain ⟨y, hym, _, ry⟩ := hy _ ho
      obtain ⟨v', sv, rv⟩ := ry _ v (fun k hk => hp k (by simp [hk])) hr
      exact ⟨v', sv, .inArray hf' hym rv⟩

theorem Similar.carries {a b : Json} (h : Similar E K a b) :
    Carries E K a b ∧ Carries E K b a := by
  induction h with
  | refl a => exact ⟨.refl a, .refl a⟩
  | symm _ ih => exact ih.symm
  | trans _ _ h1 h2 => exact ⟨h1.1.trans h2.1, h2.2.trans h1.2⟩
  | arrPerm hp =>
    exact ⟨carries_arr fun x hx => ⟨x, hp.subset hx, .refl x, .refl x⟩,
      carries_arr fun x hx => ⟨x, hp.symm.subset hx, .refl x, .refl x⟩⟩
  | objPerm hd hp =>
    exact ⟨carries_obj fun _ _ _ hf => firstMember_perm hd hp hf,
      carries_obj fun _ _ _ hf => firstMember_perm (hd.perm hp) hp.symm hf⟩
  | addMember hr hK =>
    exact ⟨carries_obj fun k _ hk hf => (firstMember_add hr (fun e => hk (by rw [e]; exact hK))).1 hf,
      carries_obj fun k _ hk hf => (firstMember_add hr (fun e => hk (by rw [e]; exact hK))).2 hf⟩
  | inArr hs ih => exact ⟨carries_inArr hs ih.1, carries_inArr hs.symm ih.2⟩
  | inObj hs ih => exact ⟨carries_inObj hs ih.1, carries_inObj hs.symm ih.2⟩

theorem Similar.scalars {a b : Json} (h : Similar E K a b) {path : List Str}
    (hp : ∀ k ∈ path, ¬ K k) {s : Json} (hs : ScalarUnder E a path s) : ScalarUnder E b path s := by
  obtain ⟨hsc, hr | ⟨items, hr, hm⟩⟩ := hs
  · obtain ⟨v', sv, rv⟩ := h.carries.1.1 path s hp hr
    have := sv.scalar (.inl hsc)
    subst this
    exact ⟨hsc, .inl rv⟩
  · obtain ⟨v', sv, rv⟩ := h.carries.1.1 path _ hp hr
    obtain ⟨ys, rfl, hy⟩ := sv.carries.1.2 items rfl
    obtain ⟨y, hym, sy, _⟩ := hy s hm
    have := sy.scalar (.inl hsc)
    subst this
    exact ⟨hsc, .inr ⟨ys, rv, hym⟩⟩

theorem Similar.sat {a b : Json} (h : Similar E K a b) {n : Node}
    (hp : PathsIn (fun path => ∀ k ∈ path, ¬ K k) n) : Sat E a n ↔ Sat E b n := by
  induction n with
  | and l r ihl ihr => exact and_congr (ihl hp.1) (ihr hp.2)
  | or l r ihl ihr => exact or_congr (ihl hp.1) (ihr hp.2)
  | not e ih => exact not_congr (ih hp)
  | subdoc => exact Iff.rfl
  | expr op f vs pos =>
    have hp : ∀ k ∈ f, ¬ K k := hp
    have hsc : ∀ s, ScalarUnder E a f s ↔ ScalarUnder E b f s :=
      fun s => ⟨h.scalars hp, h.symm.scalars hp⟩
    have hex : (∃ v, Resolves E a f v) ↔ ∃ v, Resolves E b f v :=
      ⟨fun ⟨v, hv⟩ => let ⟨v', _, r⟩ := h.carries.1.1 f v hp hv; ⟨v', r⟩,
        fun ⟨v, hv⟩ => let ⟨v', _, r⟩ := h.carries.2.1 f v hp hv; ⟨v', r⟩⟩
    have hnull : ∀ {a b : Json}, Similar E K a b → (∀ v, Resolves E a f v → v = .null) →
        ∀ v, Resolves E b f v → v = .null := by
      intro a b h hn v hv
      obtain ⟨v', sv, rv⟩ := h.carries.2.1 f v hp hv
      have := hn v' rv
      subst this
      exact sv.scalar (.inr trivial)
    cases op <;> simp only [Sat, hsc, hex]
    · exact and_congr_right fun _ => ⟨hnull h, hnull h.symm⟩

variable {m : Matcher} {root : Node} {d d' : Json}

/-- **C38.** Reordering array elements, reordering the members of objects with distinct names, and
adding or removing members whose names are no segment of any path of the query, anywhere in the
document and any number of times, never changes the result. -/
theorem C38_similar_documents (h : Ready E root m) (hs : Similar E K d d')
    (hk : PathsIn (fun path => ∀ k ∈ path, ¬ K k) root) (hp : PathsIn (Plain d) root) :
    (m.match E (.valid d)).2 = (m.match E (.valid d')).2 := by
  have hp' : PathsIn (Plain d') root := by
    have : Plain d = Plain d' := by
      have hl : ∀ x : Json, (∃ xs, x = .arr xs) ↔ x.isArr = true := by intro x; cases x <;> simp [Json.isArr]
      funext path; unfold Plain; simp only [hl, hs.isArr]
    rwa [← this]
  obtain ⟨⟨b, hb⟩, h1⟩ := h.answer hp
  obtain ⟨⟨b', hb'⟩, h2⟩ := h.answer hp'
  rw [hb, hb']
  have := h1.trans ((hs.sat hk).trans h2.symm)
  unfold Accepts at this
  rw [hb, hb'] at this
  congr 1
  simp only [MatchOut.result.injEq] at this
  exact Bool.eq_iff_iff.2 this

theorem sat_add {pre post : List (Str × Json)} {raw k0 : Str} {v0 : Json}
    (hr : E.unescape raw = some k0) {n : Node}
    (hp : PathsIn (fun path => path.head? ≠ some k0) n) :
    Sat E (.obj (pre ++ post)) n ↔ Sat E (.obj (pre ++ (raw, v0) :: post)) n := by
  induction n with
  | and l r ihl ihr => exact and_congr (ihl hp.1) (ihr hp.2)
  | or l r ihl ihr => exact or_congr (ihl hp.1) (ihr hp.2)
  | not e ih => exact not_congr (ih hp)
  | subdoc => exact Iff.rfl
  | expr op f vs pos =>
    have hres : ∀ v, Resolves E (.obj (pre ++ post)) f v ↔
        Resolves E (.obj (pre ++ (raw, v0) :: post)) f v := by
      intro v
      have hf : ∀ k rest, f = k :: rest → ∀ w, FirstMember E (pre ++ post) k w ↔
          FirstMember E (pre ++ (raw, v0) :: post) k w := by
        rintro k rest rfl w
        exact firstMember_add hr (fun e => hp (by rw [e]; rfl))
      constructor
      · intro h
        cases h with
        | last h => exact .last ((hf _ _ rfl _).1 h)
        | inObject h h' => exact .inObject ((hf _ _ rfl _).1 h) h'
        | inArray h ho h' => exact .inArray ((hf _ _ rfl _).1 h) ho h'
      · intro h
        cases h with
        | last h => exact .last ((hf _ _ rfl _).2 h)
        | inObject h h' => exact .inObject ((hf _ _ rfl _).2 h) h'
        | inArray h ho h' => exact .inArray ((hf _ _ rfl _).2 h) ho h'
    cases op <;> simp only [Sat, ScalarUnder, hres]

/-- **C38.** Adding a member to the document whose name begins no path of the query does not change
the result. -/
theorem C38_unreferenced_member {pre post : List (Str × Json)} {raw k0 : Str} {v0 : Json}
    (h : Ready E root m) (hr : E.unescape raw = some k0)
    (hk : PathsIn (fun path => path.head? ≠ some k0) root)
    (hp : PathsIn (fun path => path ≠ []) root) :
    (m.match E (.valid (.obj (pre ++ post)))).2 =
      (m.match E (.valid (.obj (pre ++ (raw, v0) :: post)))).2 := by
  have hplain : ∀ ms, PathsIn (Plain (.obj ms)) root := by
    intro ms
    have hpl : ∀ path : List Str, path ≠ [] → Plain (.obj ms) path := by
      intro path hne
      cases path with
      | nil => exact absurd rfl hne
      | cons k rest => exact ⟨k, rest, rfl, by simp⟩
    clear h hk
    induction root with
    | and l r ihl ihr => exact ⟨ihl hp.1, ihr hp.2⟩
    | or l r ihl ihr => exact ⟨ihl hp.1, ihr hp.2⟩
    | not e ih => exact ih hp
    | subdoc f e ih => exact ih hp
    | expr op f vs pos => exact hpl f hp
  obtain ⟨⟨b, hb⟩, h1⟩ := h.answer (hplain (pre ++ post))
  obtain ⟨⟨b', hb'⟩, h2⟩ := h.answer (hplain (pre ++ (raw, v0) :: post))
  rw [hb, hb']
  have := h1.trans ((sat_add hr hk).trans h2.symm)
  unfold Accepts at this
  rw [hb, hb'] at this
  congr 1
  simp only [MatchOut.result.injEq] at this
  exact Bool.eq_iff_iff.2 this

-- two similar documents: members swapped inside an array element, elements swapped, a member added
example : Similar testEnv (· = "z".toList)
    (.obj [("a".toList, .arr [.obj [("b".toList, .null), ("c".toList, .bool true)], .num "1".toList])])
    (.obj [("z".toList, .null),
      ("a".toList, .arr [.num "1".toList, .obj [("c".toList, .bool true), ("b".toList, .null)]])]) := by
  refine .trans (.addMember (pre := []) (raw := "z".toList) (k := "z".toList) (v := .null)
    (by decide +kernel) rfl) ?_
  refine .inObj (pre := [("z".toList, .null)]) ?_
  refine .trans (.arrPerm (List.Perm.swap _ _ _)) ?_
  exact .inArr (pre := [.num "1".toList]) (.objPerm ⟨["b".toList, "c".toList], by decide +kernel,
    by decide⟩ (List.Perm.swap _ _ _))

end Aql
