import Verif.Model.Visitors
import Verif.Spec.Query
import Verif.Spec.Walk
import Verif.Proofs.Match
/-! The validators decide the typing rules; walks follow the preorder listing. -/

namespace Aql

open Spec

variable (E : Env)

theorem mustBeOneOf_none (ts : List ValType) (vs : List Val) :
    mustBeOneOf ts vs = none ↔ ∀ v ∈ vs, v.type ∈ ts := by
  induction vs with
  | nil => simp [mustBeOneOf]
  | cons v vs ih =>
    simp only [mustBeOneOf, List.forall_mem_cons]
    split <;> simp_all

theorem checkRValsLoop_none (op : Op) (n : Nat) (seen : List Str) (i : Nat) (vs : List Val) :
    checkRValsLoop E op n seen i vs = none ↔
      (vs.map (Val.toStr E)).Nodup ∧ (∀ s ∈ vs.map (Val.toStr E), s ∉ seen) ∧
      (op = .EQ → ∀ pre v post, vs = pre ++ v :: post →
        ¬ (v.toStr E = "true".toList ∧ ("false".toList ∈ seen ∨ "false".toList ∈ pre.map (Val.toStr E))) ∧
        ¬ (v.toStr E = "false".toList ∧ ("true".toList ∈ seen ∨ "true".toList ∈ pre.map (Val.toStr E)))) := by
  induction vs generalizing seen i with
  | nil => simp [checkRValsLoop]
  | cons v vs ih =>
    simp only [checkRValsLoop]
    by_cases h1 : v.toStr E ∈ seen
    · rw [if_pos h1]
      simp only [reduceCtorEq, false_iff]
      rintro ⟨_, h, _⟩
      exact h _ (by simp) h1
    rw [if_neg h1]
    by_cases h2 : op = .EQ ∧ ((v.toStr E = "true".toList ∧ "false".toList ∈ seen) ∨
        (v.toStr E = "false".toList ∧ "true".toList ∈ seen))
    · rw [if_pos h2]
      simp only [reduceCtorEq, false_iff]
      rintro ⟨_, _, h⟩
      have := h h2.1 [] v vs rfl
      rcases h2.2 with h3 | h3
      · exact this.1 ⟨h3.1, Or.inl h3.2⟩
      · exact this.2 ⟨h3.1, Or.inl h3.2⟩
    rw [if_neg h2, ih]
    simp only [List.map_cons, List.nodup_cons, List.forall_mem_cons]
    constructor
    · rintro ⟨a, b, c⟩
      refine ⟨⟨fun hm => b _ hm (by simp), a⟩, ⟨h1, fun s hs hs' => b s hs (by simp [hs'])⟩, ?_⟩
      intro hop pre w post he
      cases pre with
      | nil =>
        simp only [List.nil_append, List.cons.injEq] at he
        obtain ⟨rfl, rfl⟩ := he
        simp only [List.map_nil, List.not_mem_nil, or_false]
        exact ⟨fun h => h2 ⟨hop, Or.inl h⟩, fun h => h2 ⟨hop, Or.inr h⟩⟩
      | cons x pre =>
        simp only [List.cons_append, List.cons.injEq] at he
        obtain ⟨rfl, he⟩ := he
        have := c hop pre w post he
        simp only [List.mem_cons, List.map_cons] at this ⊢
        constructor
        · rintro ⟨h, h' | h' | h'⟩
          · exact this.1 ⟨h, Or.inl (Or.inr h')⟩
          · exact this.1 ⟨h, Or.inl (Or.inl h')⟩
          · exact this.1 ⟨h, Or.inr h'⟩
        · rintro ⟨h, h' | h' | h'⟩
          · exact this.2 ⟨h, Or.inl (Or.inr h')⟩
          · exact this.2 ⟨h, Or.inl (Or.inl h')⟩
          · exact this.2 ⟨h, Or.inr h'⟩
    · rintro ⟨⟨a1, a2⟩, ⟨_, b⟩, c⟩
      refine ⟨a2, fun s hs hm => ?_, ?_⟩
      · rcases List.mem_cons.1 hm with rfl | hm
        · exact a1 hs
        · exact b s hs hm
      · intro hop pre w post he
        have := c hop (v :: pre) w post (by simp [he])
        simp only [List.mem_cons, List.map_cons] at this ⊢
        constructor
        · rintro ⟨h, (h' | h') | h'⟩
          · exact this.1 ⟨h, Or.inr (Or.inl h')⟩
          · exact this.1 ⟨h, Or.inl h'⟩
          · exact this.1 ⟨h, Or.inr (Or.inr h')⟩
        · rintro ⟨h, (h' | h') | h'⟩
          · exact this.2 ⟨h, Or.inr (Or.inl h')⟩
          · exact this.2 ⟨h, Or.inl h'⟩
          · exact this.2 ⟨h, Or.inr (Or.inr h')⟩

theorem mem_split_two {l : List Str} {a b : Str} (hab : a ≠ b) (ha : a ∈ l) (hb : b ∈ l) :
    (∃ pre post, l = pre ++ b :: post ∧ a ∈ pre) ∨ (∃ pre post, l = pre ++ a :: post ∧ b ∈ pre) := by
  induction l with
  | nil => simp at ha
  | cons x l ih =>
    rcases List.mem_cons.1 ha with rfl | ha'
    · rcases List.mem_cons.1 hb with rfl | hb'
      · exact absurd rfl hab
      · obtain ⟨pre, post, rfl⟩ := List.append_of_mem hb'
        exact Or.inl ⟨a :: pre, post, by simp, by simp⟩
    · rcases List.mem_cons.1 hb with rfl | hb'
      · obtain ⟨pre, post, rfl⟩ := List.append_of_mem ha'
        exact Or.inr ⟨b :: pre, post, by simp, by simp⟩
      · rcases ih ha' hb' with ⟨pre, post, rfl, h⟩ | ⟨pre, post, rfl, h⟩
        · exact Or.inl ⟨x :: pre, post, by simp, by simp [h]⟩
        · exact Or.inr ⟨x :: pre, post, by simp, by simp [h]⟩

theorem checkRVals_none (op : Op) (vs : List Val) :
    checkRVals E op vs = none ↔ (vs.map (Val.toStr E)).Nodup ∧
      (op = .EQ → ¬ ("true".toList ∈ vs.map (Val.toStr E) ∧ "false".toList ∈ vs.map (Val.toStr E))) := by
  have htf : "true".toList ≠ "false".toList := by decide
  unfold checkRVals
  by_cases hl : vs.length ≤ 1
  · rw [if_pos hl]
    simp only [true_iff]
    match vs, hl with
    | [], _ => simp
    | [v], _ =>
      refine ⟨by simp, fun _ h => ?_⟩
      simp only [List.map_cons, List.map_nil, List.mem_singleton] at h
      exact htf (h.1.trans h.2.symm)
  rw [if_neg hl, checkRValsLoop_none]
  simp only [List.not_mem_nil, false_or, not_false_eq_true, implies_true, true_and]
  refine and_congr_right fun _ => ?_
  constructor
  · rintro h hop ⟨ht, hf⟩
    rcases mem_split_two htf ht hf with ⟨pre, post, he, hm⟩ | ⟨pre, post, he, hm⟩
    · obtain ⟨p1, p2, rfl, rfl, he2⟩ := List.map_eq_append_iff.1 he
      obtain ⟨v, p3, rfl, hv, rfl⟩ := List.map_eq_cons_iff.1 he2
      exact (h hop p1 v p3 rfl).2 ⟨hv, hm⟩
    · obtain ⟨p1, p2, rfl, rfl, he2⟩ := List.map_eq_append_iff.1 he
      obtain ⟨v, p3, rfl, hv, rfl⟩ := List.map_eq_cons_iff.1 he2
      exact (h hop p1 v p3 rfl).1 ⟨hv, hm⟩
  · intro h hop pre v post he
    subst he
    constructor
    · rintro ⟨h1, h2⟩
      exact h hop ⟨by simp [← h1], by simp only [List.map_append, List.mem_append]; exact Or.inl h2⟩
    · rintro ⟨h1, h2⟩
      exact h hop ⟨by simp only [List.map_append, List.mem_append]; exact Or.inl h2, by simp [← h1]⟩

theorem checkArity_none (op : Op) (vs : List Val) (pos : Pos) :
    checkArity op vs pos = none ↔ ArityOk op vs.length := by
  cases op <;> simp only [checkArity, ArityOk] <;> split <;>
    simp only [reduceCtorEq, false_iff, true_iff] <;> omega

theorem checkValues_none (op : Op) (vs : List Val) (ha : ArityOk op vs.length) :
    checkValues op vs = none ↔ ∀ v ∈ vs, OperandOk op v := by
  cases op <;> simp_all [checkValues, OperandOk, ArityOk, mustBeOneOf_none]

theorem numOrZero_eq (v : Val) : numOrZero v = betweenConst v := by cases v <;> rfl

theorem checkBetween_spec (a b : Val) :
    ∃ r, checkBetween .BET [a, b] = .ok r ∧ (r = none ↔ BetweenOk a b) := by
  have num : a.type ≠ .time → checkBetween .BET [a, b] =
      .ok (if F64.le (numOrZero b) (numOrZero a) then some ⟨b.pos, greaterMsg⟩ else none) →
      ∃ r, checkBetween .BET [a, b] = .ok r ∧ (r = none ↔ BetweenOk a b) := by
    intro hty he
    refine ⟨_, he, ?_⟩
    have h1 : BetweenOk a b ↔ ¬ FLe (numOrZero b) (numOrZero a) := by
      unfold BetweenOk
      simp only [betweenConst_iff, numOrZero_eq]
      constructor
      · rintro (⟨_, _, _, _, _, _, _, _, rfl, _⟩ | ⟨_, l, r, rfl, rfl, h⟩)
        · exact absurd rfl hty
        · exact h
      · intro h; exact Or.inr ⟨fun e => hty ((typeOf_eq a).symm.trans e), _, _, rfl, rfl, h⟩
    rw [h1, ← F64.le_iff]
    split <;> simp_all
  cases a with
  | time sa ta da pa =>
    cases b with
    | time sb tb db pb =>
      refine ⟨_, rfl, ?_⟩
      unfold BetweenOk
      constructor
      · intro h
        left
        refine ⟨sa, ta, da, pa, sb, tb, db, pb, rfl, rfl, ?_⟩
        split at h
        · cases h
        · omega
      · rintro (⟨_, _, _, _, _, _, _, _, h1, h2, h⟩ | ⟨h, _⟩)
        · cases h1; cases h2
          rw [if_neg (by omega)]
        · exact absurd rfl h
    | _ =>
      refine ⟨_, rfl, ?_⟩
      simp only [reduceCtorEq, false_iff]
      rintro (⟨_, _, _, _, _, _, _, _, h1, h2, h⟩ | ⟨h, _⟩)
      · cases h2
      · exact absurd rfl h
  | _ => exact num (by simp [Val.type]) rfl

/-- The validator accepts exactly the well-typed comparisons, and never panics. -/
theorem validateExpr_spec (op : Op) (vs : List Val) (pos : Pos) :
    ∃ r, validateExpr E op vs pos = .ok r ∧ (r = none ↔ ExprOk E op vs) := by
  unfold validateExpr
  cases h2 : checkArity op vs pos with
  | some e2 =>
    have hno : ¬ ExprOk E op vs := fun h => by
      have := (checkArity_none op vs pos).2 h.arity
      rw [h2] at this; cases this
    cases h1 : checkValues op vs with
    | some e1 => exact ⟨_, rfl, by simp [hno]⟩
    | none => exact ⟨_, rfl, by simp [hno]⟩
  | none =>
    have har := (checkArity_none op vs pos).1 h2
    cases h1 : checkValues op vs with
    | some e1 =>
      refine ⟨_, rfl, ?_⟩
      simp only [reduceCtorEq, false_iff]
      intro h
      have := (checkValues_none op vs har).2 h.types
      rw [h1] at this; cases this
    | none =>
      have hty := (checkValues_none op vs har).1 h1
      cases h3 : checkRVals E op vs with
      | some e3 =>
        refine ⟨_, rfl, ?_⟩
        simp only [reduceCtorEq, false_iff]
        intro h
        have := (checkRVals_none E op vs).2 ⟨h.distinct, h.noConflict⟩
        rw [h3] at this; cases this
      | none =>
        obtain ⟨hd, hc⟩ := (checkRVals_none E op vs).1 h3
        by_cases hop : op = .BET
        · subst hop
          obtain ⟨a, b, rfl⟩ := List.length_eq_two.1 har
          obtain ⟨r, hr, hi⟩ := checkBetween_spec a b
          refine ⟨r, hr, hi.trans ⟨fun h => ⟨har, hty, hd, hc, ?_⟩, fun h => h.between a b rfl rfl⟩⟩
          intro a' b' _ he
          cases he; exact h
        · refine ⟨none, by simp [checkBetween, hop], by
            simp only [true_iff]; exact ⟨har, hty, hd, hc, fun _ _ h => absurd h hop⟩⟩

/-! ### walks -/

theorem runList_drop {σ : Type} (visit : σ → Node → GoM (σ × Option VErr)) (xs ys : List (Node × Nat))
    (s : σ) : runList visit xs.length s (xs ++ ys) = runList visit 0 s ys := by
  induction xs with
  | nil => rfl
  | cons x xs ih => simpa [runList] using ih

/-- The outcome of a walk of a subtree, continued over the rest of the listing. -/
def contWalk {σ : Type} (visit : σ → Node → GoM (σ × Option VErr)) (rest : List (Node × Nat)) :
    GoM (σ × Option VErr) → GoM (σ × Option VErr)
  | .error p => .error p
  | .ok (s, none) => runList visit 0 s rest
  | .ok (s, some .skip) => runList visit 0 s rest
  | .ok (s, some .skipAll) => .ok (s, none)
  | .ok (s, some e) => .ok (s, some e)

theorem walkr_ne_skip {σ : Type} (v : Visitor σ) (s s' : VState σ) (n : Node) :
    walkr v s n ≠ .ok (s', some .skip) := by
  induction n generalizing s with
  | and l r ihl ihr =>
    rw [walkr]
    split
    · simp
    · simp
    · rename_i hs _; intro h; cases h; exact hs rfl
    · dsimp only
      split
      · simp
      · exact ihr _
      · rename_i hs _; intro h; cases h; exact hs rfl
      · exact ihr _
  | or l r ihl ihr =>
    rw [walkr]
    split
    · simp
    · simp
    · rename_i hs _; intro h; cases h; exact hs rfl
    · dsimp only
      split
      · simp
      · exact ihr _
      · rename_i hs _; intro h; cases h; exact hs rfl
      · exact ihr _
  | not e ih =>
    rw [walkr]
    split
    · simp
    · simp
    · rename_i hs _; intro h; cases h; exact hs rfl
    · exact ih _
  | subdoc f e ih =>
    rw [walkr]
    split
    · simp
    · simp
    · rename_i hs _; intro h; cases h; exact hs rfl
    · exact ih _
  | expr =>
    rw [walkr]
    split
    · simp
    · simp
    · rename_i hs _; intro h; cases h; exact hs rfl
    · simp

theorem walkr_runList {σ : Type} (v : Visitor σ) (s : VState σ) (n : Node)
    (rest : List (Node × Nat)) :
    runList v.visit 0 s (preorder n ++ rest) = contWalk v.visit rest (walkr v s n) := by
  have two : ∀ (l r : Node) (s : VState σ) (rest : List (Node × Nat)),
      (∀ s rest, runList v.visit 0 s (preorder l ++ rest) = contWalk v.visit rest (walkr v s l)) →
      (∀ s rest, runList v.visit 0 s (preorder r ++ rest) = contWalk v.visit rest (walkr v s r)) →
      runList v.visit 0 s (preorder l ++ (preorder r ++ rest)) =
        contWalk v.visit rest (match walkr v s l with
          | .error p => .error p
          | .ok (s, some .skip) => walkr v s r
          | .ok (s, some e) => .ok (s, some e)
          | .ok (s, none) => walkr v s r) := by
    intro l r s rest hl hr
    rw [hl]
    rcases hw : walkr v s l with p | ⟨s', _ | e⟩
    · rfl
    · simp only [contWalk, hr]
    · cases e with
      | skip => exact absurd hw (walkr_ne_skip v s s' l)
      | _ => rfl
  induction n generalizing s rest with
  | and l r ihl ihr =>
    rw [walkr]
    simp only [preorder, List.cons_append, runList, List.append_assoc]
    rcases hv : v.visit s (.and l r) with p | ⟨s', _ | e⟩
    · rfl
    · exact two l r s' rest ihl ihr
    · cases e with
      | skip =>
        simp only [contWalk]
        rw [← List.length_append, ← List.append_assoc, runList_drop]
      | _ => rfl
  | or l r ihl ihr =>
    rw [walkr]
    simp only [preorder, List.cons_append, runList, List.append_assoc]
    rcases hv : v.visit s (.or l r) with p | ⟨s', _ | e⟩
    · rfl
    · exact two l r s' rest ihl ihr
    · cases e with
      | skip =>
        simp only [contWalk]
        rw [← List.length_append, ← List.append_assoc, runList_drop]
      | _ => rfl
  | not e ih =>
    rw [walkr]
    simp only [preorder, List.cons_append, runList]
    rcases hv : v.visit s (.not e) with p | ⟨s', _ | er⟩
    · rfl
    · exact ih s' rest
    · cases er with
      | skip => simp only [contWalk]; rw [runList_drop]
      | _ => rfl
  | subdoc f e ih =>
    rw [walkr]
    simp only [preorder, List.cons_append, runList]
    rcases hv : v.visit s (.subdoc f e) with p | ⟨s', _ | er⟩
    · rfl
    · exact ih s' rest
    · cases er with
      | skip => simp only [contWalk]; rw [runList_drop]
      | _ => rfl
  | expr op f vs pos =>
    rw [walkr]
    simp only [preorder, List.cons_append, List.nil_append, runList]
    rcases hv : v.visit s (.expr op f vs pos) with p | ⟨s', _ | er⟩
    · rfl
    · rfl
    · cases er with
      | skip => rfl
      | _ => rfl

/-- A walk is the run of the preorder listing. -/
theorem walk_runList {σ : Type} (v : Visitor σ) (s : VState σ) (n : Node) :
    walk v s n = runList v.visit 0 s (preorder n) := by
  have h := walkr_runList v s n []
  rw [List.append_nil] at h
  rw [h, walk]
  rcases hw : walkr v s n with p | ⟨s', _ | e⟩
  · rfl
  · rfl
  · cases e with
    | skip => exact absurd hw (walkr_ne_skip v s s' n)
    | _ => rfl

end Aql
