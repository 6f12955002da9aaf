import Verif.Spec.Reading
import Verif.Spec.Resolve
import Verif.Proofs.JsonText
/-! Paths in a document and in the value it stands for. -/

namespace Aql

open Spec

variable {E : Env}

theorem items_forall₂ {ds : List Json} {vs : List JOut} : DocsForItems ds vs ↔ List.Forall₂ DocFor ds vs := by
  induction ds generalizing vs with
  | nil => cases vs <;> simp [DocsForItems]
  | cons d ds ih => cases vs <;> simp [DocsForItems, ih]

theorem members_forall₂ {ds : List (Str × Json)} {ms : List (Str × JOut)} : DocsForMembers ds ms ↔
    List.Forall₂ (fun a b => readString (a.1 ++ ['"']) = some (b.1, []) ∧ DocFor a.2 b.2) ds ms := by
  induction ds generalizing ms with
  | nil => cases ms <;> simp [DocsForMembers]
  | cons d ds ih => obtain ⟨k, d⟩ := d; rcases ms with _ | ⟨⟨k', v⟩, ms⟩ <;> simp [DocsForMembers, ih, and_assoc]

theorem firstMember_named (hE : UnescapesJson E) {ds : List (Str × Json)} {ms : List (Str × JOut)}
    (h : DocsForMembers ds ms) {k : Str} : (∀ x, FirstMember E ds k x → ∃ w, FirstNamed ms k w ∧ DocFor x w) ∧
      (∀ w, FirstNamed ms k w → ∃ x, FirstMember E ds k x ∧ DocFor x w) := by
  rw [members_forall₂] at h
  induction h with
  | nil =>
    constructor
    · rintro x ⟨pre, raw, post, h, -⟩; simp at h
    · rintro x ⟨pre, post, h, -⟩; simp at h
  | @cons a b ds ms hab _ ih =>
    obtain ⟨raw, d⟩ := a
    obtain ⟨k', v⟩ := b
    have hu : E.unescape raw = some k' := hE _ _ hab.1
    by_cases hk : k' = k
    · subst hk
      constructor
      · rintro x ⟨pre, raw', post, he, h1, h2⟩
        cases pre with
        | nil => simp at he; obtain ⟨⟨-, rfl⟩, -⟩ := he; exact ⟨v, ⟨[], ms, rfl, by simp⟩, hab.2⟩
        | cons p pre =>
          simp at he
          obtain ⟨c, hc, hne⟩ := h2 p (by simp)
          rw [← he.1, hu] at hc
          cases hc
          exact absurd rfl hne
      · rintro w ⟨pre, post, he, h2⟩
        cases pre with
        | nil => simp at he; obtain ⟨rfl, -⟩ := he; exact ⟨d, ⟨[], raw, ds, rfl, hu, by simp⟩, hab.2⟩
        | cons p pre =>
          simp at he
          exact absurd (by rw [← he.1]) (h2 p (by simp))
    · constructor
      · rintro x ⟨pre, raw', post, he, h1, h2⟩
        cases pre with
        | nil =>
          simp at he
          rw [← he.1.1, hu] at h1
          cases h1
          exact absurd rfl hk
        | cons p pre =>
          simp at he
          obtain ⟨w, ⟨pre', post', he', hp⟩, hw⟩ := ih.1 x ⟨pre, raw', post, he.2, h1, fun q hq => h2 q (by simp [hq])⟩
          refine ⟨w, ⟨(k', v) :: pre', post', by rw [he']; rfl, ?_⟩, hw⟩
          intro q hq
          rcases List.mem_cons.1 hq with rfl | hq
          · exact hk
          · exact hp q hq
      · rintro w ⟨pre, post, he, h2⟩
        cases pre with
        | nil => simp at he; exact absurd he.1.1 hk
        | cons p pre =>
          simp at he
          obtain ⟨x, ⟨pre', raw', post', he', h1, hp⟩, hw⟩ := ih.2 w ⟨pre, post, he.2, fun q hq => h2 q (by simp [hq])⟩
          refine ⟨x, ⟨(raw, d) :: pre', raw', post', by rw [he']; rfl, h1, ?_⟩, hw⟩
          intro q hq
          rcases List.mem_cons.1 hq with rfl | hq
          · exact ⟨k', hu, hk⟩
          · exact hp q hq

theorem docFor_obj {ms : List (Str × Json)} {w : JOut} (h : DocFor (.obj ms) w) : ∃ ms', w = .obj ms' ∧ DocsForMembers ms ms' := by
  cases w <;> simp only [DocFor] at h
  exact ⟨_, rfl, h⟩

theorem docFor_arr {vs : List Json} {w : JOut} (h : DocFor (.arr vs) w) : ∃ vs', w = .arr vs' ∧ DocsForItems vs vs' := by
  cases w <;> simp only [DocFor] at h
  exact ⟨_, rfl, h⟩

theorem obj_docFor {ms : List (Str × JOut)} {d : Json} (h : DocFor d (.obj ms)) : ∃ ms', d = .obj ms' ∧ DocsForMembers ms' ms := by
  cases d <;> simp only [DocFor] at h
  exact ⟨_, rfl, h⟩

theorem arr_docFor {vs : List JOut} {d : Json} (h : DocFor d (.arr vs)) : ∃ vs', d = .arr vs' ∧ DocsForItems vs' vs := by
  cases d <;> simp only [DocFor] at h
  exact ⟨_, rfl, h⟩

theorem item_docFor {ds : List Json} {vs : List JOut} (h : DocsForItems ds vs) :
    (∀ d ∈ ds, ∃ v ∈ vs, DocFor d v) ∧ ∀ v ∈ vs, ∃ d ∈ ds, DocFor d v := by
  rw [items_forall₂] at h
  induction h with
  | nil => simp
  | @cons a b _ _ hab _ ih =>
    constructor
    · intro d hd
      rcases List.mem_cons.1 hd with rfl | hd
      · exact ⟨b, by simp, hab⟩
      · obtain ⟨v, hv, h⟩ := ih.1 d hd
        exact ⟨v, by simp [hv], h⟩
    · intro v hv
      rcases List.mem_cons.1 hv with rfl | hv
      · exact ⟨a, by simp, hab⟩
      · obtain ⟨d, hd, h⟩ := ih.2 v hv
        exact ⟨d, by simp [hd], h⟩

theorem resolves_lies (hE : UnescapesJson E) {d x : Json} {path : List Str} (h : Resolves E d path x) :
    ∀ {v}, DocFor d v → ∃ w, LiesUnder v path w ∧ DocFor x w := by
  induction h with
  | last hf =>
    intro v hv
    obtain ⟨ms, rfl, hm⟩ := docFor_obj hv
    obtain ⟨w, h1, h2⟩ := (firstMember_named hE hm).1 _ hf
    exact ⟨w, .last h1, h2⟩
  | inObject hf _ ih =>
    intro v hv
    obtain ⟨ms, rfl, hm⟩ := docFor_obj hv
    obtain ⟨w, h1, h2⟩ := (firstMember_named hE hm).1 _ hf
    obtain ⟨ms', rfl, hm'⟩ := docFor_obj h2
    obtain ⟨w', h3, h4⟩ := ih h2
    exact ⟨w', .inObject h1 h3, h4⟩
  | inArray hf ho _ ih =>
    intro v hv
    obtain ⟨ms, rfl, hm⟩ := docFor_obj hv
    obtain ⟨w, h1, h2⟩ := (firstMember_named hE hm).1 _ hf
    obtain ⟨vs, rfl, hvs⟩ := docFor_arr h2
    obtain ⟨o', ho', h3⟩ := (item_docFor hvs).1 _ ho
    obtain ⟨w', h4, h5⟩ := ih h3
    exact ⟨w', .inArray h1 ho' h4, h5⟩

theorem lies_resolves (hE : UnescapesJson E) {v w : JOut} {path : List Str} (h : LiesUnder v path w) :
    ∀ {d}, DocFor d v → ∃ x, Resolves E d path x ∧ DocFor x w := by
  induction h with
  | last hf =>
    intro d hd
    obtain ⟨ms, rfl, hm⟩ := obj_docFor hd
    obtain ⟨x, h1, h2⟩ := (firstMember_named hE hm).2 _ hf
    exact ⟨x, .last h1, h2⟩
  | inObject hf _ ih =>
    intro d hd
    obtain ⟨ms, rfl, hm⟩ := obj_docFor hd
    obtain ⟨x, h1, h2⟩ := (firstMember_named hE hm).2 _ hf
    obtain ⟨ms', rfl, -⟩ := obj_docFor h2
    obtain ⟨y, h3, h4⟩ := ih h2
    exact ⟨y, .inObject h1 h3, h4⟩
  | inArray hf ho _ ih =>
    intro d hd
    obtain ⟨ms, rfl, hm⟩ := obj_docFor hd
    obtain ⟨x, h1, h2⟩ := (firstMember_named hE hm).2 _ hf
    obtain ⟨vs, rfl, hvs⟩ := arr_docFor h2
    obtain ⟨o', ho', h3⟩ := (item_docFor hvs).2 _ ho
    obtain ⟨y, h4, h5⟩ := ih h3
    exact ⟨y, .inArray h1 ho' h4, h5⟩

theorem scalar_found (hE : UnescapesJson E) {d s : Json} {v : JOut} (hd : DocFor d v) {path : List Str}
    (h : ScalarUnder E d path s) : ∃ w, FoundUnder v path w ∧ DocFor s w := by
  obtain ⟨-, h | ⟨items, h, hs⟩⟩ := h
  · obtain ⟨w, h1, h2⟩ := resolves_lies hE h hd
    exact ⟨w, .inl h1, h2⟩
  · obtain ⟨w, h1, h2⟩ := resolves_lies hE h hd
    obtain ⟨vs, rfl, hvs⟩ := docFor_arr h2
    obtain ⟨o, ho, h3⟩ := (item_docFor hvs).1 _ hs
    exact ⟨o, .inr ⟨vs, h1, ho⟩, h3⟩

theorem found_scalar (hE : UnescapesJson E) {d : Json} {v w : JOut} (hd : DocFor d v) {path : List Str}
    (h : FoundUnder v path w) (hw : (∀ ms, w ≠ .obj ms) ∧ ∀ vs, w ≠ .arr vs) : ∃ s, ScalarUnder E d path s ∧ DocFor s w := by
  have hs : ∀ {s}, DocFor s w → IsScalar s := by
    intro s h
    cases s with
    | obj ms => obtain ⟨ms', rfl, -⟩ := docFor_obj h; exact absurd rfl (hw.1 _)
    | arr ms => obtain ⟨ms', rfl, -⟩ := docFor_arr h; exact absurd rfl (hw.2 _)
    | _ => trivial
  rcases h with h | ⟨vs, h, ho⟩
  · obtain ⟨s, h1, h2⟩ := lies_resolves hE h hd
    exact ⟨s, ⟨hs h2, .inl h1⟩, h2⟩
  · obtain ⟨x, h1, h2⟩ := lies_resolves hE h hd
    obtain ⟨ds, rfl, hds⟩ := arr_docFor h2
    obtain ⟨s, hm, h3⟩ := (item_docFor hds).2 _ ho
    exact ⟨s, ⟨hs h3, .inr ⟨ds, h1, hm⟩⟩, h3⟩

end Aql
