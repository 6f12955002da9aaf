import Verif.Model.Values
import Verif.Spec.Resolve
/-! Lemmas: `getField` refines `Spec.Resolves`, `scalarValues` refines `Spec.ScalarUnder`. -/

namespace Aql

open Spec

variable (E : Env)

theorem anyGo_ok {α : Type} {p : α → GoM Bool} {xs : List α} {f : α → Bool}
    (h : ∀ x ∈ xs, p x = .ok (f x)) : anyGo p xs = .ok (xs.any f) := by
  induction xs with
  | nil => rfl
  | cons x xs ih =>
    have hx := h x (by simp)
    have ih := ih (fun y hy => h y (by simp [hy]))
    simp only [anyGo, hx, List.any_cons]
    cases f x <;> simp [ih]

theorem flatMapGo_ok {α β : Type} {g : α → GoM (List β)} {xs : List α} {f : α → List β}
    (h : ∀ x ∈ xs, g x = .ok (f x)) : flatMapGo g xs = .ok (xs.flatMap f) := by
  induction xs with
  | nil => rfl
  | cons x xs ih =>
    have hx := h x (by simp)
    have ih := ih (fun y hy => h y (by simp [hy]))
    simp [flatMapGo, hx, ih]

theorem mapGo_mem {α β : Type} {g : α → GoM (List β)} {xs : List α}
    (h : ∀ x ∈ xs, ∃ ys, g x = .ok ys) :
    ∃ zs, flatMapGo g xs = .ok zs ∧ ∀ z, z ∈ zs ↔ ∃ x ∈ xs, ∃ ys, g x = .ok ys ∧ z ∈ ys := by
  induction xs with
  | nil => exact ⟨[], rfl, by simp⟩
  | cons x xs ih =>
    obtain ⟨ys, hys⟩ := h x (by simp)
    obtain ⟨zs, hzs, hm⟩ := ih (fun y hy => h y (by simp [hy]))
    refine ⟨ys ++ zs, by simp [flatMapGo, hys, hzs], ?_⟩
    intro z
    simp only [List.mem_append, hm, List.mem_cons]
    constructor
    · rintro (hz | ⟨y, hy, w, hw, hz⟩)
      · exact ⟨x, .inl rfl, ys, hys, hz⟩
      · exact ⟨y, .inr hy, w, hw, hz⟩
    · rintro ⟨y, rfl | hy, w, hw, hz⟩
      · rw [hys] at hw; cases hw; exact .inl hz
      · exact .inr ⟨y, hy, w, hw, hz⟩

theorem getMember_iff (k : Str) (ms : List (Str × Json)) (v : Json) :
    getMember E k ms = some v ↔ FirstMember E ms k v := by
  induction ms with
  | nil =>
    simp only [getMember, FirstMember]
    constructor
    · intro h; cases h
    · rintro ⟨pre, raw, post, h, -⟩; simp at h
  | cons m ms ih =>
    obtain ⟨raw, w⟩ := m
    simp only [getMember]
    cases hu : E.unescape raw with
    | none =>
      simp only []
      constructor
      · intro h; cases h
      · rintro ⟨pre, raw', post, h, hk, hp⟩
        cases pre with
        | nil => simp at h; rw [← h.1.1, hu] at hk; cases hk
        | cons p pre =>
          simp at h
          obtain ⟨k', hk', -⟩ := hp p (by simp)
          rw [← h.1, hu] at hk'; cases hk'
    | some key =>
      simp only []
      split
      · rename_i hkey
        subst hkey
        constructor
        · intro h; cases h; exact ⟨[], raw, ms, rfl, hu, by simp⟩
        · rintro ⟨pre, raw', post, h, hk, hp⟩
          cases pre with
          | nil => simp at h; simp [h.1.2]
          | cons p pre =>
            simp at h
            obtain ⟨k', hk', hne⟩ := hp p (by simp)
            rw [← h.1, hu] at hk'; cases hk'; exact absurd rfl hne
      · rename_i hkey
        rw [ih]
        constructor
        · rintro ⟨pre, raw', post, h, hk, hp⟩
          refine ⟨(raw, w) :: pre, raw', post, by simp [h], hk, ?_⟩
          intro p hpm
          rcases List.mem_cons.1 hpm with rfl | hpm
          · exact ⟨key, hu, hkey⟩
          · exact hp p hpm
        · rintro ⟨pre, raw', post, h, hk, hp⟩
          cases pre with
          | nil => simp at h; rw [← h.1.1, hu] at hk; cases hk; exact absurd rfl hkey
          | cons p pre =>
            simp at h
            exact ⟨pre, raw', post, h.2, hk, fun q hq => hp q (by simp [hq])⟩

/-- A root object and a non-empty path: resolution succeeds and yields exactly the specified
values. -/
theorem getObject_spec : ∀ (path : List Str) (ms : List (Str × Json)), path ≠ [] →
    ∃ vs, getObject E path (.obj ms) = .ok vs ∧ ∀ v, v ∈ vs ↔ Resolves E (.obj ms) path v := by
  intro path
  induction path with
  | nil => intro ms h; exact absurd rfl h
  | cons k rest ih =>
    intro ms _
    simp only [getObject, jsonGet]
    cases hg : getMember E k ms with
    | none =>
      refine ⟨[], rfl, ?_⟩
      intro v
      simp only [List.not_mem_nil, false_iff]
      intro hr
      have : ∃ w, FirstMember E ms k w := by
        cases hr with
        | last h => exact ⟨_, h⟩
        | inObject h _ => exact ⟨_, h⟩
        | inArray h _ _ => exact ⟨_, h⟩
      obtain ⟨w, hw⟩ := this
      rw [← getMember_iff, hg] at hw
      cases hw
    | some c =>
      have hc : FirstMember E ms k c := (getMember_iff E k ms c).1 hg
      have huniq : ∀ w, FirstMember E ms k w → w = c := by
        intro w hw
        have := (getMember_iff E k ms w).2 hw
        rw [hg] at this; cases this; rfl
      cases rest with
      | nil =>
        refine ⟨[c], rfl, ?_⟩
        intro v
        simp only [List.mem_singleton]
        constructor
        · rintro rfl; exact .last hc
        · intro hr
          cases hr with
          | last h => exact huniq _ h
      | cons k' rest' =>
        cases c with
        | obj ms' =>
          obtain ⟨vs, hvs, hm⟩ := ih ms' (by simp)
          refine ⟨vs, hvs, ?_⟩
          intro v
          rw [hm]
          constructor
          · intro h; exact .inObject hc h
          · intro hr
            cases hr with
            | inObject h h' => have := huniq _ h; cases this; exact h'
            | inArray h _ _ => have := huniq _ h; cases this
        | arr items =>
          have hall : ∀ o ∈ items, ∃ ys,
              (if o.isObj then getObject E (k' :: rest') o else .ok []) = .ok ys := by
            intro o _
            cases o with
            | obj ms' => obtain ⟨vs, hvs, -⟩ := ih ms' (by simp); exact ⟨vs, by simp [Json.isObj, hvs]⟩
            | _ => exact ⟨[], by simp [Json.isObj]⟩
          obtain ⟨zs, hzs, hm⟩ := mapGo_mem hall
          refine ⟨zs, hzs, ?_⟩
          intro v
          rw [hm]
          constructor
          · rintro ⟨o, ho, ys, hys, hv⟩
            cases o with
            | obj ms' =>
              obtain ⟨vs, hvs, hmm⟩ := ih ms' (by simp)
              simp only [Json.isObj, if_true, hvs] at hys
              cases hys
              exact .inArray hc ho ((hmm v).1 hv)
            | _ => simp [Json.isObj] at hys; subst hys; cases hv
          · intro hr
            cases hr with
            | inObject h _ => have := huniq _ h; cases this
            | inArray h ho h' =>
              have := huniq _ h; cases this
              rename_i o
              cases o with
              | obj ms' =>
                obtain ⟨vs, hvs, hmm⟩ := ih ms' (by simp)
                exact ⟨.obj ms', ho, vs, by simp [Json.isObj, hvs], (hmm v).2 h'⟩
              | _ => cases h'
        | _ =>
          refine ⟨[], rfl, ?_⟩
          intro v
          simp only [List.not_mem_nil, false_iff]
          intro hr
          cases hr with
          | inObject h _ => have := huniq _ h; cases this
          | inArray h _ _ => have := huniq _ h; cases this

theorem scalarValues_mem (vs : List Json) (s : Json) :
    s ∈ scalarValues vs ↔ IsScalar s ∧ (s ∈ vs ∨ ∃ items, Json.arr items ∈ vs ∧ s ∈ items) := by
  simp only [scalarValues, List.mem_flatMap]
  constructor
  · rintro ⟨v, hv, hs⟩
    cases v with
    | obj ms => simp at hs
    | arr items =>
      simp only [List.mem_filter] at hs
      refine ⟨?_, .inr ⟨items, hv, hs.1⟩⟩
      cases s <;> simp_all [Json.isObj, Json.isArr, IsScalar]
    | _ => simp only [List.mem_singleton] at hs; subst hs; exact ⟨trivial, .inl hv⟩
  · rintro ⟨hsc, hv | ⟨items, hv, hs⟩⟩
    · refine ⟨s, hv, ?_⟩
      cases s <;> simp_all [IsScalar]
    · refine ⟨.arr items, hv, ?_⟩
      simp only [List.mem_filter]
      refine ⟨hs, ?_⟩
      cases s <;> simp_all [Json.isObj, Json.isArr, IsScalar]

end Aql
