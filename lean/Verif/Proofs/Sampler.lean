import Verif.Spec.Sample
import Mathlib.Data.List.Count
import Mathlib.Data.List.Nodup
/-!
The sampler's state after sampling, as the multiset of visited leaves.
-/

namespace Aql

open Spec

/-! ## The key map -/

/-- Count of a key, 0 when absent. -/
def KeyMap.get (m : KeyMap) (k : Str) : Nat :=
  match m with
  | [] => 0
  | (k', n) :: r => if k' = k then n else KeyMap.get r k

/-- Every key once, every count positive. -/
structure KeyMap.Ok (m : KeyMap) : Prop where
  nodup : (m.map (·.1)).Nodup
  pos : ∀ p ∈ m, 0 < p.2

theorem KeyMap.get_inc (m : KeyMap) (k k' : Str) :
    (m.inc k).get k' = m.get k' + if k = k' then 1 else 0 := by
  induction m with
  | nil => simp [KeyMap.inc, KeyMap.get]
  | cons p r ih =>
    obtain ⟨a, n⟩ := p
    simp only [KeyMap.inc]
    by_cases h : a = k
    · subst h
      rw [if_pos rfl]
      simp only [KeyMap.get]
      split <;> simp
    · rw [if_neg h]
      simp only [KeyMap.get]
      by_cases h2 : a = k'
      · subst h2
        have : ¬ k = a := fun e => h e.symm
        simp [this]
      · simp [h2, ih]

theorem KeyMap.mem_keys_inc (m : KeyMap) (k x : Str) :
    x ∈ (m.inc k).map (·.1) ↔ x = k ∨ x ∈ m.map (·.1) := by
  induction m with
  | nil => simp [KeyMap.inc]
  | cons p r ih =>
    obtain ⟨a, n⟩ := p
    simp only [KeyMap.inc]
    by_cases h : a = k
    · subst h; simp
    · rw [if_neg h]
      simp only [List.map_cons, List.mem_cons, ih]
      tauto

theorem KeyMap.Ok.inc {m : KeyMap} (h : m.Ok) (k : Str) : (m.inc k).Ok := by
  induction m with
  | nil => exact ⟨by simp [KeyMap.inc], by simp [KeyMap.inc]⟩
  | cons p r ih =>
    obtain ⟨a, n⟩ := p
    have hn := h.nodup
    simp only [List.map_cons, List.nodup_cons] at hn
    have hr : KeyMap.Ok r := ⟨hn.2, fun p hp => h.pos p (by simp [hp])⟩
    simp only [KeyMap.inc]
    by_cases e : a = k
    · rw [if_pos e]
      refine ⟨h.nodup, fun p hp => ?_⟩
      rcases List.mem_cons.1 hp with rfl | hp
      · simp
      · exact hr.pos p hp
    · rw [if_neg e]
      refine ⟨?_, fun p hp => ?_⟩
      · simp only [List.map_cons, List.nodup_cons]
        refine ⟨?_, (ih hr).nodup⟩
        rw [KeyMap.mem_keys_inc]
        rintro (e' | h')
        · exact e e'
        · exact hn.1 h'
      · rcases List.mem_cons.1 hp with rfl | hp
        · exact h.pos _ (by simp)
        · exact (ih hr).pos p hp

theorem KeyMap.Ok.mem_iff {m : KeyMap} (h : m.Ok) (k : Str) (n : Nat) :
    (k, n) ∈ m ↔ n = m.get k ∧ 0 < n := by
  induction m with
  | nil => simp [KeyMap.get]
  | cons p r ih =>
    obtain ⟨a, c⟩ := p
    have hn := h.nodup
    simp only [List.map_cons, List.nodup_cons] at hn
    have hr : KeyMap.Ok r := ⟨hn.2, fun p hp => h.pos p (by simp [hp])⟩
    have hc : 0 < c := h.pos (a, c) (by simp)
    simp only [KeyMap.get, List.mem_cons, Prod.mk.injEq]
    by_cases e : a = k
    · subst e
      rw [if_pos rfl]
      constructor
      · rintro (⟨_, rfl⟩ | hm)
        · exact ⟨rfl, hc⟩
        · exact absurd (List.mem_map.2 ⟨_, hm, rfl⟩) hn.1
      · rintro ⟨rfl, _⟩; exact .inl ⟨rfl, rfl⟩
    · rw [if_neg e]
      rw [← ih hr]
      constructor
      · rintro (⟨rfl, _⟩ | hm)
        · exact absurd rfl e
        · exact hm
      · exact .inr

theorem KeyMap.Ok.mem_keys {m : KeyMap} (h : m.Ok) (k : Str) :
    k ∈ m.map (·.1) ↔ 0 < m.get k := by
  constructor
  · intro hk
    obtain ⟨⟨a, n⟩, hm, rfl⟩ := List.mem_map.1 hk
    obtain ⟨e, hp⟩ := (h.mem_iff a n).1 hm
    dsimp only; omega
  · intro hk
    exact List.mem_map.2 ⟨(k, m.get k), (h.mem_iff _ _).2 ⟨rfl, hk⟩, rfl⟩

/-- Count a list of keys. -/
def KeyMap.incAll (m : KeyMap) (ks : List Str) : KeyMap := ks.foldl KeyMap.inc m

theorem KeyMap.get_incAll (m : KeyMap) (ks : List Str) (k : Str) :
    (m.incAll ks).get k = m.get k + ks.count k := by
  induction ks generalizing m with
  | nil => simp [KeyMap.incAll]
  | cons a ks ih =>
    rw [show m.incAll (a :: ks) = (m.inc a).incAll ks from rfl, ih, KeyMap.get_inc, List.count_cons]
    simp only [beq_iff_eq]
    omega

theorem KeyMap.Ok.incAll {m : KeyMap} (h : m.Ok) (ks : List Str) : (m.incAll ks).Ok := by
  induction ks generalizing m with
  | nil => exact h
  | cons a ks ih => exact ih (h.inc a)

theorem KeyMap.incAll_append (m : KeyMap) (a b : List Str) :
    m.incAll (a ++ b) = (m.incAll a).incAll b := List.foldl_append

/-! ## Visited leaves -/

mutual

/-- The leaf paths visited below a value at the given depth, in order. -/
def leavesV (maxDepth : Int) : SJson → Int → List (List Str)
  | .obj ms _, d => if d > maxDepth then [] else leavesM maxDepth ms d
  | .arr items _, d => if d > maxDepth then [] else leavesI maxDepth items d
  | .unknown, _ => []
  | .scalar, d => if d > maxDepth then [] else [[]]

def leavesM (maxDepth : Int) : List (Str × SJson) → Int → List (List Str)
  | [], _ => []
  | (k, v) :: ms, d => (leavesV maxDepth v (d + 1)).map (k :: ·) ++ leavesM maxDepth ms d

def leavesI (maxDepth : Int) : List SJson → Int → List (List Str)
  | [], _ => []
  | v :: vs, d => (if v.isArr then [] else leavesV maxDepth v d) ++ leavesI maxDepth vs d

end

mutual

theorem mem_leavesV (m : Int) : ∀ (v : SJson) (d : Int) (p : List Str),
    p ∈ leavesV m v d ↔ LeafPath v p ∧ d + p.length ≤ m
  | .obj ms closed, d, p => by
    rw [leavesV]
    by_cases h : d > m
    · rw [if_pos h]
      constructor
      · intro h; cases h
      · rintro ⟨_, h'⟩; omega
    · rw [if_neg h, mem_leavesM m ms d p]
      constructor
      · rintro ⟨k, v, q, hm, rfl, hl, hd⟩
        exact ⟨.member hm hl, by simp; omega⟩
      · rintro ⟨hl, hd⟩
        cases hl with
        | member hm hl => exact ⟨_, _, _, hm, rfl, hl, by simp at hd; omega⟩
  | .arr items closed, d, p => by
    rw [leavesV]
    by_cases h : d > m
    · rw [if_pos h]
      constructor
      · intro h; cases h
      · rintro ⟨_, h'⟩; omega
    · rw [if_neg h, mem_leavesI m items d p]
      constructor
      · rintro ⟨v, hm, ha, hl, hd⟩
        exact ⟨.element hm ((isList_eq v).trans ha) hl, hd⟩
      · rintro ⟨hl, hd⟩
        cases hl with
        | element hm ha hl => exact ⟨_, hm, (isList_eq _).symm.trans ha, hl, hd⟩
  | .unknown, d, p => by
    rw [leavesV]
    constructor
    · intro h; cases h
    · rintro ⟨h, _⟩; cases h
  | .scalar, d, p => by
    rw [leavesV]
    by_cases h : d > m
    · rw [if_pos h]
      constructor
      · intro h; cases h
      · rintro ⟨_, h'⟩; omega
    · rw [if_neg h, List.mem_singleton]
      constructor
      · rintro rfl; exact ⟨.scalar, by simp; omega⟩
      · rintro ⟨h, _⟩; cases h; rfl

theorem mem_leavesM (m : Int) : ∀ (ms : List (Str × SJson)) (d : Int) (p : List Str),
    p ∈ leavesM m ms d ↔ ∃ k v q, (k, v) ∈ ms ∧ p = k :: q ∧ LeafPath v q ∧ d + 1 + q.length ≤ m
  | [], d, p => by rw [leavesM]; simp
  | (k, v) :: ms, d, p => by
    rw [leavesM, List.mem_append, mem_leavesM m ms d p, List.mem_map]
    constructor
    · rintro (⟨q, hq, rfl⟩ | ⟨k', v', q, hm, rfl, hl, hd⟩)
      · rw [mem_leavesV m v (d + 1) q] at hq
        exact ⟨k, v, q, by simp, rfl, hq.1, hq.2⟩
      · exact ⟨k', v', q, by simp [hm], rfl, hl, hd⟩
    · rintro ⟨k', v', q, hm, rfl, hl, hd⟩
      rcases List.mem_cons.1 hm with e | hm
      · cases e
        exact .inl ⟨q, (mem_leavesV m v (d + 1) q).2 ⟨hl, hd⟩, rfl⟩
      · exact .inr ⟨k', v', q, hm, rfl, hl, hd⟩

theorem mem_leavesI (m : Int) : ∀ (vs : List SJson) (d : Int) (p : List Str),
    p ∈ leavesI m vs d ↔ ∃ v, v ∈ vs ∧ v.isArr = false ∧ LeafPath v p ∧ d + p.length ≤ m
  | [], d, p => by rw [leavesI]; simp
  | v :: vs, d, p => by
    rw [leavesI, List.mem_append, mem_leavesI m vs d p]
    have hv : p ∈ (if v.isArr = true then [] else leavesV m v d) ↔
        v.isArr = false ∧ LeafPath v p ∧ d + p.length ≤ m := by
      by_cases ha : v.isArr = true
      · simp [ha]
      · rw [if_neg ha, mem_leavesV m v d p]
        simp only [Bool.not_eq_true] at ha
        simp [ha]
    rw [hv]
    constructor
    · rintro (h | ⟨v', hm, h⟩)
      · exact ⟨v, by simp, h⟩
      · exact ⟨v', by simp [hm], h⟩
    · rintro ⟨v', hm, h⟩
      rcases List.mem_cons.1 hm with rfl | hm
      · exact .inl h
      · exact .inr ⟨v', hm, h⟩

end

/-- The path buffer for a list of keys. -/
def parts (p : List Str) : Str := p.flatMap keyPart

theorem keyPart_eq (k : Str) : keyPart k = '.' :: segment k := by
  unfold keyPart segment
  split <;> rfl

theorem parts_tail {p : List Str} (h : p ≠ []) : (parts p).tail = dotted p := by
  unfold parts dotted
  cases p with
  | nil => exact absurd rfl h
  | cons k p =>
    clear h
    induction p generalizing k with
    | nil => simp [keyPart_eq, List.intercalate]
    | cons k' p ih =>
      have := ih k'
      rw [List.flatMap_cons, keyPart_eq]
      simp only [List.cons_append, List.tail_cons]
      rw [List.map_cons, List.map_cons, List.intercalate_cons_cons, ← List.map_cons, ← this]
      rw [List.flatMap_cons, keyPart_eq]
      simp

/-- The key recorded for a leaf found below a path buffer. -/
def keyOf (path : Str) (p : List Str) : Str := (path ++ parts p).tail

/-- What a successful visit does. -/
def Visited (leaves : List (List Str)) (path : Str) (keys keys' : Option KeyMap) : Prop :=
  (∀ p ∈ leaves, path ++ parts p ≠ []) ∧ (keys = none → leaves = [] ∧ keys' = none) ∧
  ∀ M, keys = some M → keys' = some (M.incAll (leaves.map (keyOf path)))

theorem Visited.nil (path : Str) (keys : Option KeyMap) : Visited [] path keys keys :=
  ⟨by simp, fun h => ⟨rfl, h⟩, fun _ h => h⟩

theorem Visited.append {l1 l2 : List (List Str)} {path : Str} {k1 k2 k3 : Option KeyMap}
    (h1 : Visited l1 path k1 k2) (h2 : Visited l2 path k2 k3) : Visited (l1 ++ l2) path k1 k3 := by
  refine ⟨?_, ?_, ?_⟩
  · intro p hp
    rcases List.mem_append.1 hp with hp | hp
    · exact h1.1 p hp
    · exact h2.1 p hp
  · intro h
    obtain ⟨e1, e2⟩ := h1.2.1 h
    obtain ⟨e3, e4⟩ := h2.2.1 e2
    exact ⟨by rw [e1, e3]; rfl, e4⟩
  · intro M h
    rw [List.map_append, KeyMap.incAll_append]
    exact h2.2.2 _ (h1.2.2 M h)

theorem Visited.cons {l : List (List Str)} {path k : Str} {k1 k2 : Option KeyMap}
    (h : Visited l (path ++ keyPart k) k1 k2) : Visited (l.map (k :: ·)) path k1 k2 := by
  have e : ∀ p, path ++ parts (k :: p) = path ++ keyPart k ++ parts p := by
    intro p; simp [parts]
  refine ⟨?_, ?_, ?_⟩
  · intro p hp
    obtain ⟨q, hq, rfl⟩ := List.mem_map.1 hp
    rw [e]; exact h.1 q hq
  · intro h0; obtain ⟨a, b⟩ := h.2.1 h0; exact ⟨by rw [a]; rfl, b⟩
  · intro M h0
    rw [h.2.2 M h0, List.map_map]
    congr 2
    apply List.map_congr_left
    intro p _
    simp only [keyOf, Function.comp, e]

mutual

theorem sampleV_ok (m : Int) : ∀ (v : SJson) (path : Str) (d : Int) (keys keys' : Option KeyMap),
    sampleV m v path d keys = .ok (keys', false) → Visited (leavesV m v d) path keys keys'
  | .obj ms closed, path, d, keys, keys', h => by
    rw [sampleV] at h
    rw [leavesV]
    by_cases hd : d > m
    · rw [if_pos hd] at h ⊢; cases h; exact .nil _ _
    · rw [if_neg hd] at h ⊢
      exact sampleMembers_ok m ms closed path d keys keys' h
  | .arr items closed, path, d, keys, keys', h => by
    rw [sampleV] at h
    rw [leavesV]
    by_cases hd : d > m
    · rw [if_pos hd] at h ⊢; cases h; exact .nil _ _
    · rw [if_neg hd] at h ⊢
      exact sampleItems_ok m items closed path d keys false keys' h
  | .unknown, path, d, keys, keys', h => by
    rw [sampleV] at h
    rw [leavesV]
    simp only [Except.ok.injEq, Prod.mk.injEq] at h
    obtain ⟨rfl, _⟩ := h
    exact .nil _ _
  | .scalar, path, d, keys, keys', h => by
    rw [sampleV] at h
    rw [leavesV]
    by_cases hd : d > m
    · rw [if_pos hd] at h ⊢; cases h; exact .nil _ _
    · rw [if_neg hd] at h ⊢
      cases path with
      | nil => cases h
      | cons c k =>
        cases keys with
        | none => cases h
        | some M =>
          cases h
          refine ⟨by simp, by simp, ?_⟩
          intro M' e
          cases e
          simp [keyOf, parts, KeyMap.incAll]

theorem sampleMembers_ok (m : Int) : ∀ (ms : List (Str × SJson)) (closed : Bool) (path : Str)
    (d : Int) (keys keys' : Option KeyMap),
    sampleMembers m ms closed path d keys = .ok (keys', false) →
    Visited (leavesM m ms d) path keys keys'
  | [], closed, path, d, keys, keys', h => by
    rw [sampleMembers] at h
    simp only [Except.ok.injEq, Prod.mk.injEq] at h
    obtain ⟨rfl, _⟩ := h
    rw [leavesM]; exact .nil _ _
  | (k, v) :: ms, closed, path, d, keys, keys', h => by
    rw [sampleMembers] at h
    rw [leavesM]
    rcases hv : sampleV m v (path ++ keyPart k) (d + 1) keys with p | ⟨k1, b⟩
    · rw [hv] at h; cases h
    · rw [hv] at h
      cases b
      · dsimp only at h
        exact (sampleV_ok m v _ _ _ _ hv).cons.append (sampleMembers_ok m ms closed path d k1 keys' h)
      · cases h

theorem sampleItems_ok (m : Int) : ∀ (vs : List SJson) (closed : Bool) (path : Str)
    (d : Int) (keys : Option KeyMap) (aerr : Bool) (keys' : Option KeyMap),
    sampleItems m vs closed path d keys aerr = .ok (keys', false) →
    Visited (if aerr then [] else leavesI m vs d) path keys keys'
  | [], closed, path, d, keys, aerr, keys', h => by
    rw [sampleItems] at h
    simp only [Except.ok.injEq, Prod.mk.injEq] at h
    obtain ⟨rfl, _⟩ := h
    rw [leavesI]
    cases aerr <;> exact .nil _ _
  | v :: vs, closed, path, d, keys, aerr, keys', h => by
    rw [sampleItems] at h
    rw [leavesI]
    cases aerr with
    | true => exact sampleItems_ok m vs closed path d keys true keys' h
    | false =>
      rw [if_neg (by decide)] at h
      simp only [Bool.false_eq_true, if_false]
      by_cases ha : v.isArr = true
      · rw [if_pos ha] at h ⊢
        exact sampleItems_ok m vs closed path d keys false keys' h
      · rw [if_neg ha] at h ⊢
        rcases hv : sampleV m v path d keys with p | ⟨k1, b⟩
        · rw [hv] at h; cases h
        · rw [hv] at h
          dsimp only at h
          have := sampleItems_ok m vs closed path d k1 b keys' h
          cases b with
          | false => exact (sampleV_ok m v _ _ _ _ hv).append this
          | true => exact absurd h (sampleItems_err m vs closed path d k1 keys')

theorem sampleItems_err (m : Int) : ∀ (vs : List SJson) (closed : Bool) (path : Str)
    (d : Int) (keys keys' : Option KeyMap),
    sampleItems m vs closed path d keys true ≠ .ok (keys', false)
  | [], closed, path, d, keys, keys', h => by
    rw [sampleItems] at h
    simp at h
  | v :: vs, closed, path, d, keys, keys', h => by
    rw [sampleItems, if_pos rfl] at h
    exact sampleItems_err m vs closed path d keys keys' h

end

/-! ## No panic -/

mutual

theorem sampleV_total (m : Int) : ∀ (v : SJson) (path : Str) (d : Int) (M : KeyMap), path ≠ [] →
    ∃ M' e, sampleV m v path d (some M) = .ok (some M', e)
  | .obj ms closed, path, d, M, hp => by
    rw [sampleV]
    split
    · exact ⟨M, _, rfl⟩
    · exact sampleMembers_total m ms closed path d M
  | .arr items closed, path, d, M, hp => by
    rw [sampleV]
    split
    · exact ⟨M, _, rfl⟩
    · exact sampleItems_total m items closed path d M false (fun v hv ha => .inl hp)
  | .unknown, path, d, M, hp => by rw [sampleV]; exact ⟨M, _, rfl⟩
  | .scalar, path, d, M, hp => by
    rw [sampleV]
    split
    · exact ⟨M, _, rfl⟩
    · cases path with
      | nil => exact absurd rfl hp
      | cons c k => exact ⟨_, _, rfl⟩

theorem sampleMembers_total (m : Int) : ∀ (ms : List (Str × SJson)) (closed : Bool) (path : Str)
    (d : Int) (M : KeyMap), ∃ M' e, sampleMembers m ms closed path d (some M) = .ok (some M', e)
  | [], closed, path, d, M => by rw [sampleMembers]; exact ⟨M, _, rfl⟩
  | (k, v) :: ms, closed, path, d, M => by
    rw [sampleMembers]
    obtain ⟨M', e, h⟩ := sampleV_total m v (path ++ keyPart k) (d + 1) M (by simp [keyPart_eq])
    rw [h]
    cases e
    · exact sampleMembers_total m ms closed path d M'
    · exact ⟨M', true, rfl⟩

theorem sampleItems_total (m : Int) : ∀ (vs : List SJson) (closed : Bool) (path : Str)
    (d : Int) (M : KeyMap) (aerr : Bool), (∀ v ∈ vs, v.isArr = false → path ≠ [] ∨ v ≠ .scalar) →
    ∃ M' e, sampleItems m vs closed path d (some M) aerr = .ok (some M', e)
  | [], closed, path, d, M, aerr, _ => by rw [sampleItems]; exact ⟨M, _, rfl⟩
  | v :: vs, closed, path, d, M, aerr, hv => by
    rw [sampleItems]
    have hvs : ∀ v ∈ vs, v.isArr = false → path ≠ [] ∨ v ≠ .scalar :=
      fun x hx => hv x (List.mem_cons_of_mem _ hx)
    split
    · exact sampleItems_total m vs closed path d M aerr hvs
    · split
      · exact sampleItems_total m vs closed path d M aerr hvs
      · rename_i ha
        have : ∃ M' e, sampleV m v path d (some M) = .ok (some M', e) := by
          rcases hv v (by simp) (by simpa using ha) with hp | hs
          · exact sampleV_total m v path d M hp
          · match v, hs, ha with
            | .obj ms c, _, _ =>
              rw [sampleV]
              split
              · exact ⟨M, _, rfl⟩
              · exact sampleMembers_total m ms c path d M
            | .unknown, _, _ => rw [sampleV]; exact ⟨M, _, rfl⟩
            | .arr _ _, _, ha => exact absurd rfl ha
            | .scalar, hs, _ => exact absurd rfl hs
        obtain ⟨M', e, h⟩ := this
        rw [h]
        exact sampleItems_total m vs closed path d M' e hvs

end

end Aql
