import Verif.Props.Frame
import Verif.Spec.Respelled
import Verif.Proofs.FormatText
import Verif.Spec.Layout
/-!
Documents with other spellings: what comparisons can see of them.
-/

namespace Aql

open Spec

variable {E : Env} {S : Str → Str → Prop}

/-- Two values that no comparison can tell apart as scalars. -/
structure LikeScalar (E : Env) (a b : Json) : Prop where
  scalar : IsScalar a ↔ IsScalar b
  isNull : a = .null ↔ b = .null
  bool : ∀ t, a = .bool t ↔ b = .bool t
  text : ∀ t, TextOf E a t ↔ TextOf E b t
  number : ∀ f, f ≠ .nan → (NumberOf E a f ↔ NumberOf E b f)

theorem LikeScalar.refl (a : Json) : LikeScalar E a a :=
  ⟨.rfl, .rfl, fun _ => .rfl, fun _ => .rfl, fun _ _ => .rfl⟩

theorem LikeScalar.symm {a b : Json} (h : LikeScalar E a b) : LikeScalar E b a :=
  ⟨h.1.symm, h.2.symm, fun t => (h.3 t).symm, fun t => (h.4 t).symm, fun f hf => (h.5 f hf).symm⟩

theorem LikeScalar.trans {a b c : Json} (h : LikeScalar E a b) (h' : LikeScalar E b c) : LikeScalar E a c :=
  ⟨h.1.trans h'.1, h.2.trans h'.2, fun t => (h.3 t).trans (h'.3 t), fun t => (h.4 t).trans (h'.4 t),
    fun f hf => (h.5 f hf).trans (h'.5 f hf)⟩

theorem numberOf_num {raw : Str} {f : F64} : NumberOf E (.num raw) f ↔ ReadAs E raw f :=
  ⟨fun h => by cases h; assumption, .num⟩

theorem numberOf_str {raw : Str} {f : F64} : NumberOf E (.str raw) f ↔ ReadAs E raw f :=
  ⟨fun h => by cases h; assumption, .str⟩

theorem textOf_str {raw t : Str} : TextOf E (.str raw) t ↔ E.unescape raw = some t :=
  ⟨fun h => by cases h; assumption, .str⟩

theorem textOf_num {raw t : Str} : TextOf E (.num raw) t ↔
    ∃ f z, ReadAs E raw f ∧ (z = true ↔ f = .fin 0 ∧ ∃ t, raw = '-' :: t) ∧ NumberText z f t :=
  ⟨fun h => by cases h; exact ⟨_, _, ‹_›, ‹_›, ‹_›⟩, fun ⟨_, _, h1, h2, h3⟩ => .num h1 h2 h3⟩

theorem sameNumber_symm {raw raw' : Str} (h : SameNumber E raw raw') : SameNumber E raw' raw :=
  ⟨fun f => (h.1 f).symm, fun hz => (h.2 ((h.1 _).2 hz)).symm⟩

theorem likeScalar_num {raw raw' : Str} (h : SameNumber E raw raw') : LikeScalar E (.num raw) (.num raw') := by
  have key : ∀ {raw raw' t}, SameNumber E raw raw' → TextOf E (.num raw) t → TextOf E (.num raw') t := by
    intro raw raw' t h ht
    obtain ⟨f, z, h1, h2, h3⟩ := textOf_num.1 ht
    refine textOf_num.2 ⟨f, z, (h.1 f).1 h1, ?_, h3⟩
    rw [h2]
    refine and_congr_right fun e => ?_
    subst e
    exact h.2 h1
  refine ⟨Iff.rfl, by simp, by simp, fun t => ⟨key h, key (sameNumber_symm h)⟩, fun f _ => ?_⟩
  rw [numberOf_num, numberOf_num]
  exact h.1 f

theorem likeScalar_str {raw raw' : Str} (h : SameString E raw raw') (h' : SameDigits E raw raw') :
    LikeScalar E (.str raw) (.str raw') := by
  refine ⟨Iff.rfl, by simp, by simp, fun t => ?_, fun f hf => ?_⟩
  · rw [textOf_str, textOf_str, h]
  · rw [numberOf_str, numberOf_str]
    exact h' f hf

theorem likeScalar_deep {a b : Json} (ha : ¬ IsScalar a) (hb : ¬ IsScalar b) : LikeScalar E a b := by
  cases a <;> try exact absurd trivial ha
  all_goals
    cases b <;> try exact absurd trivial hb
  all_goals
    refine ⟨iff_of_false ha hb, by simp, by simp, fun t => iff_of_false (fun h => ?_) (fun h => ?_),
      fun f _ => iff_of_false (fun h => ?_) (fun h => ?_)⟩ <;> cases h

/-- Strings may be respelled as long as they have the same meaning and are the same number. -/
abbrev LikeString (E : Env) (raw raw' : Str) : Prop := SameString E raw raw' ∧ SameDigits E raw raw'

theorem Spec.Respelled.like {a b : Json} (h : Respelled E (LikeString E) a b) : LikeScalar E a b := by
  induction h with
  | refl a => exact .refl a
  | symm _ ih => exact ih.symm
  | trans _ _ h1 h2 => exact h1.trans h2
  | num h => exact likeScalar_num h
  | str h => exact likeScalar_str h.1 h.2
  | name | inArr | inObj => exact likeScalar_deep id id

theorem Spec.Respelled.isArr {a b : Json} (h : Respelled E S a b) : a.isArr = b.isArr := by
  induction h with
  | refl => rfl
  | symm _ ih => exact ih.symm
  | trans _ _ h1 h2 => exact h1.trans h2
  | num | str | name | inArr | inObj => rfl

/-- What one spelling lets the other find. -/
def Yields (E : Env) (S : Str → Str → Prop) (a b : Json) : Prop :=
  (∀ path v, Resolves E a path v → ∃ v', Respelled E S v v' ∧ Resolves E b path v') ∧
  (∀ xs, a = .arr xs → ∃ ys, b = .arr ys ∧ ∀ x ∈ xs, ∃ y ∈ ys, Respelled E S x y ∧
    ∀ path v, Resolves E x path v → ∃ v', Respelled E S v v' ∧ Resolves E y path v')

theorem Yields.refl (a : Json) : Yields E S a a :=
  ⟨fun _ v hr => ⟨v, .refl v, hr⟩, fun xs h => ⟨xs, h, fun x hx => ⟨x, hx, .refl x, fun _ v hr => ⟨v, .refl v, hr⟩⟩⟩⟩

theorem Yields.trans {a b c : Json} (h1 : Yields E S a b) (h2 : Yields E S b c) : Yields E S a c := by
  constructor
  · intro path v hr
    obtain ⟨v1, s1, r1⟩ := h1.1 path v hr
    obtain ⟨v2, s2, r2⟩ := h2.1 path v1 r1
    exact ⟨v2, s1.trans s2, r2⟩
  · rintro xs rfl
    obtain ⟨ys, rfl, hy⟩ := h1.2 xs rfl
    obtain ⟨zs, rfl, hz⟩ := h2.2 ys rfl
    refine ⟨zs, rfl, fun x hx => ?_⟩
    obtain ⟨y, hym, sy, ry⟩ := hy x hx
    obtain ⟨z, hzm, sz, rz⟩ := hz y hym
    refine ⟨z, hzm, sy.trans sz, fun path v hr => ?_⟩
    obtain ⟨v1, s1, r1⟩ := ry path v hr
    obtain ⟨v2, s2, r2⟩ := rz path v1 r1
    exact ⟨v2, s1.trans s2, r2⟩

theorem yields_arr {pre post : List Json} {a b : Json} (hs : Respelled E S a b) (h : Yields E S a b) :
    Yields E S (.arr (pre ++ a :: post)) (.arr (pre ++ b :: post)) := by
  refine ⟨fun _ _ hr => (by cases hr), fun xs hx => ?_⟩
  cases hx
  refine ⟨_, rfl, fun x hx => ?_⟩
  rcases List.mem_append.1 hx with hx | hx
  · exact ⟨x, by simp [hx], .refl x, fun _ v hr => ⟨v, .refl v, hr⟩⟩
  · rcases List.mem_cons.1 hx with rfl | hx
    · exact ⟨b, by simp, hs, h.1⟩
    · exact ⟨x, by simp [hx], .refl x, fun _ v hr => ⟨v, .refl v, hr⟩⟩

theorem yields_obj {pre post : List (Str × Json)} {raw : Str} {a b : Json} (hs : Respelled E S a b)
    (h : Yields E S a b) : Yields E S (.obj (pre ++ (raw, a) :: post)) (.obj (pre ++ (raw, b) :: post)) := by
  refine ⟨fun path v hr => ?_, fun _ h => by cases h⟩
  cases hr with
  | last hf =>
    rcases firstMember_replace (b := b) hf with hf' | ⟨rfl, hf'⟩
    · exact ⟨v, .refl v, .last hf'⟩
    · exact ⟨b, hs, .last hf'⟩
  | inObject hf hr =>
    rcases firstMember_replace (b := b) hf with hf' | ⟨rfl, hf'⟩
    · exact ⟨v, .refl v, .inObject hf' hr⟩
    · obtain ⟨v', sv, rv⟩ := h.1 _ v hr
      refine ⟨v', sv, ?_⟩
      cases b with
      | obj ms => exact .inObject hf' rv
      | _ => cases rv
  | inArray hf ho hr =>
    rcases firstMember_replace (b := b) hf with hf' | ⟨rfl, hf'⟩
    · exact ⟨v, .refl v, .inArray hf' ho hr⟩
    · obtain ⟨ys, rfl, hy⟩ := h.2 _ rfl
      obtain ⟨y, hym, _, ry⟩ := hy _ ho
      obtain ⟨v', sv, rv⟩ := ry _ v hr
      exact ⟨v', sv, .inArray hf' hym rv⟩

theorem firstMember_name {pre post : List (Str × Json)} {raw raw' : Str} {v w : Json} {k : Str}
    (h : SameString E raw raw') (hf : FirstMember E (pre ++ (raw, v) :: post) k w) :
    FirstMember E (pre ++ (raw', v) :: post) k w := by
  simp only [← getMember_iff] at hf ⊢
  rw [← hf]
  induction pre with
  | nil => simp only [List.nil_append, getMember, ← show E.unescape raw = E.unescape raw' from h]
  | cons p pre ih =>
    obtain ⟨r, x⟩ := p
    simp only [List.cons_append, getMember] at hf ⊢
    cases hu : E.unescape r with
    | none => rfl
    | some k' =>
      rw [hu] at hf
      dsimp only at hf ⊢
      split
      · rfl
      · rename_i e
        rw [if_neg e] at hf
        exact ih hf

theorem yields_name {pre post : List (Str × Json)} {raw raw' : Str} {v : Json} (h : SameString E raw raw') :
    Yields E S (.obj (pre ++ (raw, v) :: post)) (.obj (pre ++ (raw', v) :: post)) :=
  ⟨fun _ w hr => ⟨w, .refl w, resolves_obj (fun _ _ _ hf => firstMember_name h hf) hr⟩, fun _ h => by cases h⟩

theorem Spec.Respelled.yields {a b : Json} (h : Respelled E S a b) : Yields E S a b ∧ Yields E S b a := by
  induction h with
  | refl a => exact ⟨.refl a, .refl a⟩
  | symm _ ih => exact ih.symm
  | trans _ _ h1 h2 => exact ⟨h1.1.trans h2.1, h2.2.trans h1.2⟩
  | num | str =>
    constructor <;> exact ⟨fun _ _ hr => (by cases hr), fun _ h => by cases h⟩
  | name h => exact ⟨yields_name h, yields_name (Eq.symm h)⟩
  | inArr hs ih => exact ⟨yields_arr hs ih.1, yields_arr hs.symm ih.2⟩
  | inObj hs ih => exact ⟨yields_obj hs ih.1, yields_obj hs.symm ih.2⟩

theorem Spec.Respelled.scalars {a b : Json} (h : Respelled E (LikeString E) a b) {path : List Str} {s : Json}
    (hs : ScalarUnder E a path s) : ∃ s', LikeScalar E s s' ∧ ScalarUnder E b path s' := by
  obtain ⟨hsc, hr | ⟨items, hr, hm⟩⟩ := hs
  · obtain ⟨v', sv, rv⟩ := h.yields.1.1 path s hr
    exact ⟨v', sv.like, sv.like.scalar.1 hsc, .inl rv⟩
  · obtain ⟨v', sv, rv⟩ := h.yields.1.1 path _ hr
    obtain ⟨ys, rfl, hy⟩ := sv.yields.1.2 items rfl
    obtain ⟨y, hym, sy, _⟩ := hy s hm
    exact ⟨y, sy.like, sy.like.scalar.1 hsc, .inr ⟨ys, rv, hym⟩⟩

theorem LikeScalar.nanos {a b : Json} (h : LikeScalar E a b) (w : Int) : NanosOf E a w ↔ NanosOf E b w := by
  unfold NanosOf
  simp only [h.text]

theorem not_nan_eq {f c : F64} (h : FEq f c) : f ≠ .nan := by rintro rfl; cases c <;> exact absurd h (by simp [FEq, place])

theorem LikeScalar.eqHolds {a b : Json} (h : LikeScalar E a b) {v : Val} (hv : EqHolds E v a) : EqHolds E v b := by
  cases v with
  | str => obtain ⟨t, h1, h2⟩ := hv; exact ⟨t, (h.text t).1 h1, h2⟩
  | regex => obtain ⟨t, h1, h2⟩ := hv; exact ⟨t, (h.text t).1 h1, h2⟩
  | int => obtain ⟨f, c, h1, h2, h3⟩ := hv; exact ⟨f, c, (h.number f (not_nan_eq h3)).1 h1, h2, h3⟩
  | float => obtain ⟨f, c, h1, h2, h3⟩ := hv; exact ⟨f, c, (h.number f (not_nan_eq h3)).1 h1, h2, h3⟩
  | bool t => exact (h.bool t).1 hv
  | net => obtain ⟨t, h1, h2⟩ := hv; exact ⟨t, (h.text t).1 h1, h2⟩
  | time sv t d p =>
    cases d with
    | true => obtain ⟨w, lo, hi, h1, h2⟩ := hv; exact ⟨w, lo, hi, (h.nanos w).1 h1, h2⟩
    | false => obtain ⟨w, h1, h2⟩ := hv; exact ⟨w, (h.nanos w).1 h1, h2⟩

theorem not_nan_rel {op : Op} {f c : F64} (h : FRel op f c) : f ≠ .nan := by
  rintro rfl
  cases op <;> cases c <;> simp [FRel, FLt, FLe, FEq, place] at h

theorem LikeScalar.cmpHolds {a b : Json} (h : LikeScalar E a b) {op : Op} {v : Val} (hv : CmpHolds E op v a) :
    CmpHolds E op v b := by
  rcases hv with ⟨f, c, h1, h2, h3⟩ | ⟨sv, t, d, p, w, c, h0, h1, h2⟩
  · exact .inl ⟨f, c, (h.number f (not_nan_rel h3)).1 h1, h2, h3⟩
  · exact .inr ⟨sv, t, d, p, w, c, h0, (h.nanos w).1 h1, h2⟩

theorem LikeScalar.betHolds {a b : Json} (h : LikeScalar E a b) {x y : Val} (hv : BetHolds E x y a) :
    BetHolds E x y b := by
  rcases hv with ⟨f, lo, hi, h1, h2, h3, h4, h5⟩ | ⟨sa, ta, da, pa, sb, tb, db, pb, w, lo, hi, e1, e2, h1, h2⟩
  · have : f ≠ .nan := by rintro rfl; cases hi <;> simp [FLt, FLe, FEq, place] at h5
    exact .inl ⟨f, lo, hi, (h.number f this).1 h1, h2, h3, h4, h5⟩
  · exact .inr ⟨sa, ta, da, pa, sb, tb, db, pb, w, lo, hi, e1, e2, (h.nanos w).1 h1, h2⟩

theorem Spec.Respelled.sat {a b : Json} (h : Respelled E (LikeString E) a b) {n : Node} : Sat E a n ↔ Sat E b n := by
  induction n with
  | and l r ihl ihr => exact and_congr ihl ihr
  | or l r ihl ihr => exact or_congr ihl ihr
  | not e ih => exact not_congr ih
  | subdoc => exact Iff.rfl
  | expr op f vs pos =>
    have lift : ∀ {a b : Json}, Respelled E (LikeString E) a b → ∀ P : Json → Prop,
        (∀ {x y}, LikeScalar E x y → P x → P y) → (∃ s, ScalarUnder E a f s ∧ P s) →
        ∃ s, ScalarUnder E b f s ∧ P s := by
      rintro a b h P hP ⟨s, h1, h2⟩
      obtain ⟨s', h3, h4⟩ := h.scalars h1
      exact ⟨s', h4, hP h3 h2⟩
    have iff : ∀ P : Json → Prop, (∀ {x y}, LikeScalar E x y → P x → P y) →
        ((∃ s, ScalarUnder E a f s ∧ P s) ↔ ∃ s, ScalarUnder E b f s ∧ P s) :=
      fun P hP => ⟨lift h P hP, lift h.symm P hP⟩
    have hex : (∃ v, Resolves E a f v) ↔ ∃ v, Resolves E b f v :=
      ⟨fun ⟨v, hv⟩ => let ⟨v', _, r⟩ := h.yields.1.1 f v hv; ⟨v', r⟩,
        fun ⟨v, hv⟩ => let ⟨v', _, r⟩ := h.yields.2.1 f v hv; ⟨v', r⟩⟩
    have hnull : ∀ {a b : Json}, Respelled E (LikeString E) a b → (∀ v, Resolves E a f v → v = .null) →
        ∀ v, Resolves E b f v → v = .null := by
      intro a b h hn v hv
      obtain ⟨v', sv, rv⟩ := h.yields.2.1 f v hv
      exact sv.like.isNull.2 (hn v' rv)
    cases op <;> simp only [Sat, hex, iff _ (LikeScalar.eqHolds · ·), iff _ (LikeScalar.cmpHolds · ·),
      iff _ (LikeScalar.betHolds · ·)]
    exact and_congr_right fun _ => ⟨hnull h, hnull h.symm⟩

/-- Every double is the value of a literal. -/
theorem double_lit (E : Env) {x : ℚ} (hx : IsDouble x) {z : Bool} (h0 : z = true → x = 0) :
    ∃ t w, Lit E [] t w ∧ unplaced w = .float (.fin x) z noPosition := by
  obtain ⟨m, a, r, q, h1, h2, h3, h4, h5, h6, h7, -⟩ := formatFloat_reads z hx
  have hz : decide (x = 0 ∧ m = ['-']) = z := by
    by_cases hx0 : x = 0
    · subst hx0
      cases z with
      | true =>
        rcases h1 with rfl | rfl
        · cases a with
          | nil => exact absurd rfl h2
          | cons c a =>
            have : c = '-' := (List.cons.inj (h5.symm.trans (by rfl : formatFloat true (.fin 0) = ['-', '0']))).1
            exact absurd (h3 c (by simp)) (by rw [this]; decide)
        · simp
      | false =>
        rcases h1 with rfl | rfl
        · simp
        · exact absurd (List.cons.inj (h5.symm.trans (by rfl : formatFloat false (.fin 0) = ['0']))).1 (by decide)
    · cases z with
      | true => exact absurd (h0 rfl) hx0
      | false => simp [hx0]
  rcases h4 with rfl | ⟨b, hb, hb', rfl⟩
  · have hs : ∃ neg, SignText m neg := by
      rcases h1 with rfl | rfl
      · exact ⟨_, .none⟩
      · exact ⟨_, .minus⟩
    obtain ⟨neg, hs⟩ := hs
    have d1 : DecText (m ++ (a ++ [])) ((if neg then -1 else 1) * ((digitsValue a : ℚ) + (digitsValue [] : ℚ) / 10 ^ 0) * 10 ^ (0 : ℤ)) :=
      ⟨m, neg, a, [], [], [], 0, hs, h3, .none, .inl h2, .none, by simp, rfl⟩
    have hd0 : AllDigits ['0'] := by intro c hc; rw [List.mem_singleton.1 hc]; decide
    have d2 : DecText (m ++ (a ++ '.' :: ['0'])) ((if neg then -1 else 1) * ((digitsValue a : ℚ) + (digitsValue ['0'] : ℚ) / 10 ^ 1) * 10 ^ (0 : ℤ)) :=
      ⟨m, neg, a, ['.', '0'], ['0'], [], 0, hs, h3, .point hd0, .inl h2, .none, by simp, rfl⟩
    have e0 : digitsValue ['0'] = 0 := by decide
    have e1 : digitsValue [] = 0 := by decide
    rw [e0] at d2
    rw [e1] at d1
    rw [h5] at h6
    have := ((decimalValue_iff _ _).2 h6).symm.trans ((decimalValue_iff _ _).2 d1)
    rw [Option.some.injEq] at this
    refine ⟨_, _, .float (m := m) (a := a) (b := ['0']) (q := q) h1 h2 h3 (by simp) hd0 rfl ?_ h7, by rw [← hz]; rfl⟩
    rw [this]
    simpa using d2
  · rw [h5] at h6
    exact ⟨_, _, .float (m := m) (a := a) (b := b) (q := q) h1 h2 h3 hb hb' rfl h6 h7, by rw [← hz]; rfl⟩

end Aql
