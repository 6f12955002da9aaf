import Verif.Spec.Growth
import Verif.Props.Frame
import Verif.Props.EndToEnd
/-!
Property C102: what more members and elements do to the answer (json_values.go:84-112, nodes.go).
-/

namespace Aql

open Spec

variable {E : Env} {a b c d d' : Json}

theorem Spec.Grows.isArr (h : Grows a b) : a.isArr = b.isArr := by
  induction h with
  | refl => rfl
  | trans _ _ h1 h2 => exact h1.trans h2
  | addMember | addItem | inArr | inObj => rfl

theorem Spec.Grows.scalar (h : Grows a b) (hs : IsScalar a) : b = a := by
  induction h with
  | refl => rfl
  | trans _ _ h1 h2 => have e := h1 hs; subst e; exact h2 hs
  | addMember | addItem | inArr | inObj => exact absurd hs (by simp [IsScalar])

/-- What is found in the smaller document is found, grown, in the larger one. -/
def Retains (E : Env) (a b : Json) : Prop :=
  ∀ path v, Resolves E a path v → ∃ v', Grows v v' ∧ Resolves E b path v'

/-- The same, with the elements of arrays. -/
def RetainsAll (E : Env) (a b : Json) : Prop :=
  Retains E a b ∧ ∀ xs, a = .arr xs → ∃ ys, b = .arr ys ∧ ∀ x ∈ xs, ∃ y ∈ ys, Grows x y ∧ Retains E x y

theorem Retains.refl (a : Json) : Retains E a a := fun _ v h => ⟨v, .refl v, h⟩

theorem Retains.trans (h1 : Retains E a b) (h2 : Retains E b c) : Retains E a c := by
  intro path v hv
  obtain ⟨v1, s1, r1⟩ := h1 path v hv
  obtain ⟨v2, s2, r2⟩ := h2 path v1 r1
  exact ⟨v2, s1.trans s2, r2⟩

theorem firstMember_append {ms : List (Str × Json)} {p : Str × Json} {k : Str} {v : Json}
    (h : FirstMember E ms k v) : FirstMember E (ms ++ [p]) k v := by
  obtain ⟨pre, raw, post, rfl, hk, hp⟩ := h
  exact ⟨pre, raw, post ++ [p], by simp, hk, hp⟩

theorem Spec.Grows.retains (h : Grows a b) : RetainsAll E a b := by
  induction h with
  | refl a => exact ⟨.refl a, fun xs hx => ⟨xs, hx, fun x hm => ⟨x, hm, .refl x, .refl x⟩⟩⟩
  | trans _ _ h1 h2 =>
    refine ⟨h1.1.trans h2.1, ?_⟩
    rintro xs rfl
    obtain ⟨ys, rfl, hy⟩ := h1.2 xs rfl
    obtain ⟨zs, rfl, hz⟩ := h2.2 ys rfl
    refine ⟨zs, rfl, fun x hx => ?_⟩
    obtain ⟨y, hym, sy, ry⟩ := hy x hx
    obtain ⟨z, hzm, sz, rz⟩ := hz y hym
    exact ⟨z, hzm, sy.trans sz, ry.trans rz⟩
  | addMember =>
    exact ⟨fun _ v hr => ⟨v, .refl v, resolves_obj (fun _ _ _ hf => firstMember_append hf) hr⟩, fun _ h => by cases h⟩
  | addItem =>
    refine ⟨fun _ _ hr => (by cases hr), fun xs hx => ⟨_, rfl, fun x hm => ⟨x, ?_, .refl x, .refl x⟩⟩⟩
    cases hx
    rcases List.mem_append.1 hm with hm | hm <;> simp [hm]
  | @inArr pre a b post hs ih =>
    refine ⟨fun _ _ hr => (by cases hr), fun xs hx => ⟨_, rfl, fun x hm => ?_⟩⟩
    cases hx
    rcases List.mem_append.1 hm with hm | hm
    · exact ⟨x, by simp [hm], .refl x, .refl x⟩
    · rcases List.mem_cons.1 hm with rfl | hm
      · exact ⟨b, by simp, hs, ih.1⟩
      · exact ⟨x, by simp [hm], .refl x, .refl x⟩
  | @inObj pre raw a b post hs ih =>
    refine ⟨fun path v hr => ?_, fun _ h => by cases h⟩
    cases hr with
    | last hf =>
      rcases firstMember_replace (b := b) hf with hf' | ⟨rfl, hf'⟩
      · exact ⟨v, .refl v, .last hf'⟩
      · exact ⟨b, hs, .last hf'⟩
    | inObject hf hr =>
      rcases firstMember_replace (b := b) hf with hf' | ⟨rfl, hf'⟩
      · exact ⟨v, .refl v, .inObject hf' hr⟩
      · obtain ⟨v', sv, rv⟩ := ih.1 _ v hr
        refine ⟨v', sv, ?_⟩
        cases b with
        | obj ms => exact .inObject hf' rv
        | _ => cases rv
    | inArray hf ho hr =>
      rcases firstMember_replace (b := b) hf with hf' | ⟨rfl, hf'⟩
      · exact ⟨v, .refl v, .inArray hf' ho hr⟩
      · obtain ⟨ys, rfl, hy⟩ := ih.2 _ rfl
        obtain ⟨y, hym, _, ry⟩ := hy _ ho
        obtain ⟨v', sv, rv⟩ := ry _ v hr
        exact ⟨v', sv, .inArray hf' hym rv⟩

theorem Spec.Grows.scalars (h : Grows a b) {path : List Str} {s : Json} (hs : ScalarUnder E a path s) :
    ScalarUnder E b path s := by
  obtain ⟨hsc, hr | ⟨items, hr, hm⟩⟩ := hs
  · obtain ⟨v', sv, rv⟩ := h.retains.1 path s hr
    obtain rfl := sv.scalar hsc
    exact ⟨hsc, .inl rv⟩
  · obtain ⟨v', sv, rv⟩ := h.retains.1 path _ hr
    obtain ⟨ys, rfl, hy⟩ := (sv.retains (E := E)).2 items rfl
    obtain ⟨y, hym, sy, _⟩ := hy s hm
    obtain rfl := sy.scalar hsc
    exact ⟨hsc, .inr ⟨ys, rv, hym⟩⟩

theorem Spec.Grows.sat (h : Grows a b) {n : Node} : (Polar true n → Sat E a n → Sat E b n) ∧
    (Polar false n → Sat E b n → Sat E a n) := by
  induction n with
  | and l r ihl ihr =>
    exact ⟨fun hp hs => ⟨ihl.1 hp.1 hs.1, ihr.1 hp.2 hs.2⟩, fun hp hs => ⟨ihl.2 hp.1 hs.1, ihr.2 hp.2 hs.2⟩⟩
  | or l r ihl ihr => exact ⟨fun hp hs => hs.imp (ihl.1 hp.1) (ihr.1 hp.2), fun hp hs => hs.imp (ihl.2 hp.1) (ihr.2 hp.2)⟩
  | not e ih => exact ⟨fun hp hs hb => hs (ih.2 hp hb), fun hp hs hb => hs (ih.1 hp hb)⟩
  | subdoc => exact ⟨fun _ h => h, fun _ h => h⟩
  | expr op f vs pos =>
    refine ⟨fun hp => ?_, fun hp => absurd hp.1 (by decide)⟩
    have hsc : ∀ s, ScalarUnder E a f s → ScalarUnder E b f s := fun s => h.scalars
    cases op with
    | EXS => exact fun ⟨v, hv⟩ => let ⟨v', _, r⟩ := h.retains.1 f v hv; ⟨v', r⟩
    | NUL => exact absurd rfl hp.2
    | EQ | SIM => exact fun ⟨v, hv, s, hs, he⟩ => ⟨v, hv, s, hsc s hs, he⟩
    | LT | LTE | GT | GTE => exact fun ⟨v, hv, s, hs, he⟩ => ⟨v, hv, s, hsc s hs, he⟩
    | BET => exact fun ⟨x, y, hv, s, hs, he⟩ => ⟨x, y, hv, s, hsc s hs, he⟩

variable {m : Matcher} {root : Node}

theorem plain_grown (h : Grows d d') : Plain d = Plain d' := by
  have hl : ∀ x : Json, (∃ xs, x = .arr xs) ↔ x.isArr = true := by intro x; cases x <;> simp [Json.isArr]
  funext path
  unfold Plain
  simp only [hl, h.isArr]

/-- **C102, for the queries it holds of.** A query without `null` whose comparisons stand under an even number of `NOT`s
still matches when members are added at the ends of objects and elements to arrays; one with an odd number everywhere
still matches when they are removed. Missing: `null` and queries of mixed signs, see `C102_growth_refuted`. -/
theorem C102_growth_partial (hr : Ready E root m) (h : Grows d d') (hp : PathsIn (Plain d) root) :
    (Polar true root → Accepts E m d → Accepts E m d') ∧ (Polar false root → Accepts E m d' → Accepts E m d) := by
  have hp' : PathsIn (Plain d') root := by rwa [← plain_grown h]
  rw [hr.accepts hp, hr.accepts hp']
  exact h.sat

/-- **C102 is false** of other queries: a comparison with `NOT`, one with `null`, and one with a member added at the
front, which hides a later one of the same name. -/
theorem C102_growth_refuted :
    (Grows (.obj []) (.obj [("a".toList, .num "1".toList)]) ∧
      answerOf testEnv "!a:1".toList (.obj []) = some true ∧
      answerOf testEnv "!a:1".toList (.obj [("a".toList, .num "1".toList)]) = some false) ∧
    (Grows (.obj [("a".toList, .arr [.obj [("b".toList, .null)]])])
        (.obj [("a".toList, .arr [.obj [("b".toList, .null)], .obj [("b".toList, .num "1".toList)]])]) ∧
      answerOf testEnv "a.b:null".toList (.obj [("a".toList, .arr [.obj [("b".toList, .null)]])]) = some true ∧
      answerOf testEnv "a.b:null".toList
        (.obj [("a".toList, .arr [.obj [("b".toList, .null)], .obj [("b".toList, .num "1".toList)]])]) = some false) ∧
    (answerOf testEnv "a:1".toList (.obj [("a".toList, .num "1".toList)]) = some true ∧
      answerOf testEnv "a:1".toList (.obj [("a".toList, .num "2".toList), ("a".toList, .num "1".toList)]) =
        some false) := by
  refine ⟨⟨.addMember (ms := []), by decide +kernel, by decide +kernel⟩,
    ⟨.inObj (pre := []) (post := []) (.addItem (pre := [.obj [("b".toList, .null)]]) (post := [])), by decide +kernel,
      by decide +kernel⟩, by decide +kernel, by decide +kernel⟩

-- a query that keeps matching, and one under two NOTs
example : answerOf testEnv "a.b:>1 OR c:exists".toList (.obj [("a".toList, .arr [.obj [("b".toList, .num "2".toList)]])]) =
      some true ∧
    answerOf testEnv "a.b:>1 OR c:exists".toList (.obj [("a".toList, .arr [.num "0".toList,
      .obj [("b".toList, .num "2".toList), ("b".toList, .num "0".toList)]]), ("a".toList, .null)]) = some true ∧
    Polar true (.not (.not (.expr .EXS ["a".toList] [] noPosition))) := by
  refine ⟨by decide +kernel, by decide +kernel, rfl, by decide⟩

end Aql
