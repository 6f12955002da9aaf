import Verif.Spec.NormalForm
import Verif.Props.Texts
import Verif.Proofs.Nesting
/-!
Property C111: every query can be written without parentheses (internal/grammar, jsonmatcher/nodes.go).
-/

namespace Aql

open Spec

variable {E : Env}

/-- The comparisons with one literal each that a comparison stands for. -/
def splitSet : Cst → List Cst
  | .compare p xs o op ls =>
    if op = .EQ ∨ op = .SIM then ls.map fun l => .compare p xs o op [l] else [.compare p xs o op ls]
  | c => [c]

/-- The clauses of a query (`b = true`) or of its negation. -/
def clauses : Bool → Cst → List (List (Bool × Cst))
  | b, .group c => clauses b c
  | b, .not _ c => clauses (!b) c
  | true, .and l r => (clauses true l).flatMap fun x => (clauses true r).map fun y => x ++ y
  | false, .and l r => clauses false l ++ clauses false r
  | true, .or l r => clauses true l ++ clauses true r
  | false, .or l r => (clauses false l).flatMap fun x => (clauses false r).map fun y => x ++ y
  | true, c => (splitSet c).map fun a => [(true, a)]
  | false, c => [(splitSet c).map fun a => (false, a)]

/-- Some clause holds. -/
def ClausesHold (E : Env) (d : Json) (cs : List (List (Bool × Cst))) : Prop :=
  ∃ x ∈ cs, ∀ l ∈ x, (l.1 = true ↔ Sat E d l.2.tree)

theorem splitSet_sat (d : Json) (c : Cst) : Sat E d c.tree ↔ ∃ a ∈ splitSet c, Sat E d a.tree := by
  cases c with
  | compare p xs o op ls =>
    simp only [splitSet]
    split
    · rename_i h
      rcases h with rfl | rfl <;>
        · simp only [Cst.tree, Sat, List.mem_map, exists_exists_and_eq_and, List.map_cons, List.map_nil, List.mem_singleton,
            exists_eq_left]
    · simp
  | _ => simp [splitSet]

theorem hold_append {d : Json} {a b : List (List (Bool × Cst))} :
    ClausesHold E d (a ++ b) ↔ ClausesHold E d a ∨ ClausesHold E d b := by
  simp [ClausesHold, or_and_right, exists_or]

theorem hold_product {d : Json} {a b : List (List (Bool × Cst))} :
    ClausesHold E d (a.flatMap fun x => b.map fun y => x ++ y) ↔ ClausesHold E d a ∧ ClausesHold E d b := by
  simp only [ClausesHold, List.mem_flatMap, List.mem_map]
  constructor
  · rintro ⟨_, ⟨x, hx, y, hy, rfl⟩, h⟩
    exact ⟨⟨x, hx, fun l hl => h l (by simp [hl])⟩, y, hy, fun l hl => h l (by simp [hl])⟩
  · rintro ⟨⟨x, hx, h1⟩, y, hy, h2⟩
    refine ⟨_, ⟨x, hx, y, hy, rfl⟩, fun l hl => ?_⟩
    rcases List.mem_append.1 hl with h | h
    · exact h1 l h
    · exact h2 l h

theorem hold_simple {d : Json} (b : Bool) (c : Cst) :
    ClausesHold E d (if b then (splitSet c).map fun a => [(true, a)] else [(splitSet c).map fun a => (false, a)]) ↔
      (b = true ↔ Sat E d c.tree) := by
  rw [splitSet_sat]
  cases b <;> simp [ClausesHold]

theorem clauses_hold {d : Json} (b : Bool) (c : Cst) : ClausesHold E d (clauses b c) ↔ (b = true ↔ Sat E d c.tree) := by
  induction c generalizing b with
  | noArgs p xs o op => have := hold_simple (E := E) (d := d) b (.noArgs p xs o op); cases b <;> exact this
  | compare p xs o op ls => have := hold_simple (E := E) (d := d) b (.compare p xs o op ls); cases b <;> exact this
  | group c ih =>
    have : clauses b (.group c) = clauses b c := by cases b <;> rfl
    rw [this]; exact ih b
  | not g c ih =>
    have : clauses b (.not g c) = clauses (!b) c := by cases b <;> rfl
    rw [this, ih]
    simp only [Cst.tree, Sat]
    cases b <;> simp
  | and l r ihl ihr =>
    cases b
    · simp only [clauses, hold_append, ihl, ihr, Cst.tree, Sat, Bool.false_eq_true, false_iff, not_and_or]
    · simp only [clauses, hold_product, ihl, ihr, Cst.tree, Sat, true_iff]
  | or l r ihl ihr =>
    cases b
    · simp only [clauses, hold_product, ihl, ihr, Cst.tree, Sat, Bool.false_eq_true, false_iff, not_or]
    · simp only [clauses, hold_append, ihl, ihr, Cst.tree, Sat, true_iff]

/-- A comparison as it stands in a query: a text for it, and it splits into something. -/
structure Written (E : Env) (c a : Cst) : Prop where
  simple : a.IsSimple
  laid : ∃ t, Laid E .cmp a t ∧ (c.NoRange → (∀ w ∈ c.words, '(' ∉ w) → '(' ∉ t)
  ok : AllOk E c.tree → AllOk E a.tree
  messages : (∀ n ∈ comparisons c.tree, (messageVisitorFn E n).2 = none) → ∀ n ∈ comparisons a.tree, (messageVisitorFn E n).2 = none
  paths : ∀ P, PathsIn P c.tree → PathsIn P a.tree

theorem Written.of_part {c c' a : Cst} (h : Written E c a) (h1 : c'.NoRange → c.NoRange) (h2 : ∀ w ∈ c.words, w ∈ c'.words)
    (h3 : AllOk E c'.tree → AllOk E c.tree) (h4 : ∀ n ∈ comparisons c.tree, n ∈ comparisons c'.tree)
    (h5 : ∀ P, PathsIn P c'.tree → PathsIn P c.tree) : Written E c' a := by
  obtain ⟨k1, ⟨t, k2, k3⟩, k4, k5, k6⟩ := h
  exact ⟨k1, ⟨t, k2, fun h h' => k3 (h1 h) fun w hw => h' w (h2 w hw)⟩, fun h => k4 (h3 h),
    fun h => k5 fun n hn => h n (h4 n hn), fun P h => k6 P (h5 P h)⟩

theorem exprOk_one {op : Op} (hop : op = .EQ ∨ op = .SIM) {v : Val} {vs : List Val} (h : ExprOk E op vs) (hv : v ∈ vs) :
    ExprOk E op [v] := by
  rcases hop with rfl | rfl
  · exact exprOk_single v
  · exact ⟨by simp [ArityOk], fun w hw => by rw [List.mem_singleton] at hw; subst hw; exact h.types w hv, by simp,
      (fun h => by cases h), (fun _ _ h => by cases h)⟩

/-- The parts of a comparison with several literals. -/
theorem splitSet_written {p o s : Str} {xs : List Str} {op : Op} {ls : List (Str × Val)} (hp : Path E p xs) (ho : OpText o op)
    (hl : LaidValues E ls s) (har : AllOk E (Cst.compare p xs o op ls).tree) :
    splitSet (.compare p xs o op ls) ≠ [] ∧ ∀ a ∈ splitSet (.compare p xs o op ls), Written E (.compare p xs o op ls) a := by
  have hw : Ws [] := by decide
  have hcolon : ('(' : Char) ≠ ':' := by decide
  obtain ⟨hne, hlits⟩ := laidValues_lits hl
  simp only [splitSet]
  split
  · rename_i hop
    refine ⟨by simpa using hne, fun a ha => ?_⟩
    obtain ⟨l, hl, rfl⟩ := List.mem_map.1 ha
    have hlaid := Laid.compare (w1 := []) (w2 := []) (w3 := []) hp ho (.one (hlits l hl)) hw hw hw
    refine ⟨.inl rfl, ⟨_, hlaid, fun _ h => ?_⟩, ?_, ?_, fun P h => h⟩
    · simp only [Cst.words, List.mem_cons, List.mem_map, forall_eq_or_imp, forall_exists_index, and_imp] at h
      simp only [List.nil_append, List.mem_append, List.mem_cons, not_or]
      exact ⟨h.1, hcolon, h.2.1, h.2.2 _ l hl rfl⟩
    · intro h
      exact exprOk_one hop h (List.mem_map.2 ⟨l, hl, rfl⟩)
    · intro h n hn
      have := h _ (List.mem_singleton.2 rfl)
      simp only [Cst.tree, comparisons, List.mem_singleton, List.map_cons, List.map_nil] at hn
      subst hn
      rw [messageVisitorFn, exprMessages_none] at this ⊢
      intro v hv
      rw [List.mem_singleton] at hv
      subst hv
      exact this _ (List.mem_map.2 ⟨l, hl, rfl⟩)
  · rename_i hop
    refine ⟨by simp, fun a ha => ?_⟩
    rw [List.mem_singleton] at ha
    subst ha
    have hlen := har.arity
    simp only [List.length_map] at hlen
    have hs : ls.length = 1 ∨ op = .BET := by
      cases ho <;> simp_all [ArityOk]
    refine ⟨hs, ⟨_, Laid.compare (w1 := []) (w2 := []) (w3 := []) hp ho hl hw hw hw, fun hr h => ?_⟩, id, id, fun P h => h⟩
    have h1 : ls.length = 1 := hs.resolve_right hr
    obtain ⟨l, rfl⟩ := List.length_eq_one_iff.1 h1
    simp only [Cst.words, List.map_cons, List.map_nil, List.mem_cons, forall_eq_or_imp, List.not_mem_nil, false_implies,
      implies_true, and_true] at h
    simp only [List.nil_append, List.mem_append, List.mem_cons, not_or]
    refine ⟨h.1, hcolon, h.2.1, ?_⟩
    cases hl with
    | one _ => exact h.2.2
    | list h2 => simp at h2

theorem product_parts {α : Type} {P : α → Prop} {a b : List (List α)} (ha : a ≠ [] ∧ ∀ x ∈ a, x ≠ [] ∧ ∀ l ∈ x, P l)
    (hb : b ≠ [] ∧ ∀ x ∈ b, x ≠ [] ∧ ∀ l ∈ x, P l) :
    (a.flatMap fun x => b.map fun y => x ++ y) ≠ [] ∧
      ∀ x ∈ (a.flatMap fun x => b.map fun y => x ++ y), x ≠ [] ∧ ∀ l ∈ x, P l := by
  constructor
  · obtain ⟨x, a, rfl⟩ := List.exists_cons_of_ne_nil ha.1
    obtain ⟨y, b, rfl⟩ := List.exists_cons_of_ne_nil hb.1
    simp
  · intro z hz
    simp only [List.mem_flatMap, List.mem_map] at hz
    obtain ⟨x, hx, y, hy, rfl⟩ := hz
    obtain ⟨h1, h2⟩ := ha.2 x hx
    refine ⟨by simp [h1], fun l hl => ?_⟩
    rcases List.mem_append.1 hl with h | h
    · exact h2 l h
    · exact (hb.2 y hy).2 l h

theorem sum_parts {α : Type} {P : α → Prop} {a b : List (List α)} (ha : a ≠ [] ∧ ∀ x ∈ a, x ≠ [] ∧ ∀ l ∈ x, P l)
    (hb : b ≠ [] ∧ ∀ x ∈ b, x ≠ [] ∧ ∀ l ∈ x, P l) : a ++ b ≠ [] ∧ ∀ x ∈ a ++ b, x ≠ [] ∧ ∀ l ∈ x, P l := by
  refine ⟨by simp [ha.1], fun x hx => ?_⟩
  rcases List.mem_append.1 hx with h | h
  · exact ha.2 x h
  · exact hb.2 x h

theorem parts_mono {α : Type} {P Q : α → Prop} {a : List (List α)} (hq : ∀ l, P l → Q l)
    (ha : a ≠ [] ∧ ∀ x ∈ a, x ≠ [] ∧ ∀ l ∈ x, P l) : a ≠ [] ∧ ∀ x ∈ a, x ≠ [] ∧ ∀ l ∈ x, Q l :=
  ⟨ha.1, fun x hx => ⟨(ha.2 x hx).1, fun l hl => hq l ((ha.2 x hx).2 l hl)⟩⟩

theorem simple_parts {b : Bool} {c : Cst} (h : splitSet c ≠ [] ∧ ∀ a ∈ splitSet c, Written E c a) :
    let cs := if b then (splitSet c).map fun a => [(true, a)] else [(splitSet c).map fun a => (false, a)]
    cs ≠ [] ∧ ∀ x ∈ cs, x ≠ [] ∧ ∀ l ∈ x, Written E c l.2 := by
  cases b
  · refine ⟨by simp, fun x hx => ?_⟩
    simp only [Bool.false_eq_true, if_false, List.mem_singleton] at hx
    subst hx
    refine ⟨by simpa using h.1, fun l hl => ?_⟩
    obtain ⟨a, ha, rfl⟩ := List.mem_map.1 hl
    exact h.2 a ha
  · refine ⟨by simpa using h.1, fun x hx => ?_⟩
    simp only [if_true, List.mem_map] at hx
    obtain ⟨a, ha, rfl⟩ := hx
    exact ⟨by simp, fun l hl => by rw [List.mem_singleton] at hl; subst hl; exact h.2 a ha⟩

theorem clauses_written {lvl : Level} {c : Cst} {s : Str} (h : Laid E lvl c s) : ∀ (b : Bool), AllOk E c.tree →
    clauses b c ≠ [] ∧ ∀ x ∈ clauses b c, x ≠ [] ∧ ∀ l ∈ x, Written E c l.2 := by
  have hw : Ws [] := by decide
  induction h with
  | @noArgs p xs o op w1 w2 h1 h2 _ _ =>
    intro b hok
    have := simple_parts (E := E) (b := b) (c := .noArgs p xs o op) ⟨by simp [splitSet], by
      intro a ha
      simp only [splitSet, List.mem_singleton] at ha
      subst ha
      refine ⟨trivial, ⟨_, .noArgs (w1 := []) (w2 := []) h1 h2 hw hw, fun _ h => ?_⟩, id, id, fun P h => h⟩
      simp only [Cst.words, List.mem_cons, forall_eq_or_imp, List.not_mem_nil, false_implies, implies_true, and_true] at h
      simp only [List.nil_append, List.mem_append, List.mem_cons, not_or]
      exact ⟨h.1, by decide, h.2⟩⟩
    cases b <;> exact this
  | @compare p xs o op ls w1 w2 w3 s h1 h2 h3 _ _ _ =>
    intro b hok
    have := simple_parts (E := E) (b := b) (splitSet_written h1 h2 h3 hok)
    cases b <;> exact this
  | @group c s w1 w2 _ _ _ ih =>
    intro b hok
    have e : clauses b (.group c) = clauses b c := by cases b <;> rfl
    rw [e]
    exact parts_mono (fun l hl => hl.of_part id (fun _ h => h) id (fun _ h => h) (fun _ h => h)) (ih b hok)
  | @word c s w _ _ ih =>
    intro b hok
    have e : clauses b (.not false c) = clauses (!b) c := by cases b <;> rfl
    rw [e]
    exact parts_mono (fun l hl => hl.of_part id (fun _ h => h) id (fun _ h => h) (fun _ h => h)) (ih (!b) hok)
  | @bang c s w _ _ ih =>
    intro b hok
    have e : clauses b (.not true c) = clauses (!b) c := by cases b <;> rfl
    rw [e]
    exact parts_mono (fun l hl => hl.of_part id (fun _ h => h) id (fun _ h => h) (fun _ h => h)) (ih (!b) hok)
  | @and l r s t w1 w2 _ _ _ _ ihl ihr =>
    intro b hok
    have a1 := parts_mono (Q := fun x : Bool × Cst => Written E (.and l r) x.2) (fun x hx => hx.of_part And.left
      (fun _ h => List.mem_append_left _ h) And.left (fun _ h => List.mem_append_left _ h) (fun _ h => h.1)) (ihl b hok.1)
    have a2 := parts_mono (Q := fun x : Bool × Cst => Written E (.and l r) x.2) (fun x hx => hx.of_part And.right
      (fun _ h => List.mem_append_right _ h) And.right (fun _ h => List.mem_append_right _ h) (fun _ h => h.2)) (ihr b hok.2)
    cases b
    · exact sum_parts a1 a2
    · exact product_parts a1 a2
  | @or l r s t w1 w2 _ _ _ _ ihl ihr =>
    intro b hok
    have a1 := parts_mono (Q := fun x : Bool × Cst => Written E (.or l r) x.2) (fun x hx => hx.of_part And.left
      (fun _ h => List.mem_append_left _ h) And.left (fun _ h => List.mem_append_left _ h) (fun _ h => h.1)) (ihl b hok.1)
    have a2 := parts_mono (Q := fun x : Bool × Cst => Written E (.or l r) x.2) (fun x hx => hx.of_part And.right
      (fun _ h => List.mem_append_right _ h) And.right (fun _ h => List.mem_append_right _ h) (fun _ h => h.2)) (ihr b hok.2)
    cases b
    · exact product_parts a1 a2
    · exact sum_parts a1 a2
  | cmpNot _ ih => exact ih
  | notAnd _ ih => exact ih
  | andOr _ ih => exact ih

/-- What is known of a query put together from parts of `c`. -/
structure Assembled (E : Env) (c n : Cst) (lvl : Level) : Prop where
  laid : ∃ t, Laid E lvl n t ∧ (c.NoRange → (∀ w ∈ c.words, '(' ∉ w) → '(' ∉ t)
  ok : AllOk E c.tree → AllOk E n.tree
  messages : (∀ x ∈ comparisons c.tree, (messageVisitorFn E x).2 = none) → ∀ x ∈ comparisons n.tree, (messageVisitorFn E x).2 = none
  paths : ∀ P, PathsIn P c.tree → PathsIn P n.tree

theorem one_space : Space [' '] := ⟨by decide, by simp⟩

/-- The tokens of one literal of a clause. -/
def literalCst : Bool × Cst → Cst
  | (true, c) => c
  | (false, c) => .not false c

theorem literal_assembled {c : Cst} {l : Bool × Cst} (h : Written E c l.2) :
    (literalCst l).IsLiteral ∧ Assembled E c (literalCst l) .not ∧
      ∀ d, Sat E d (literalCst l).tree ↔ (l.1 = true ↔ Sat E d l.2.tree) := by
  obtain ⟨b, a⟩ := l
  obtain ⟨hs, ⟨t, h1, h2⟩, h3, h4, h5⟩ := h
  cases b
  · refine ⟨hs, ⟨⟨_, .word h1 one_space, fun h h' => ?_⟩, h3, h4, h5⟩, fun d => by simp [literalCst, Cst.tree, Sat]⟩
    have := h2 h h'
    simp only [List.mem_append, not_or]
    exact ⟨by decide, by decide, this⟩
  · refine ⟨?_, ⟨⟨_, .cmpNot h1, h2⟩, h3, h4, h5⟩, fun d => by simp [literalCst]⟩
    cases a <;> first | exact hs | exact hs.elim

theorem clause_assembled {c : Cst} (x : List (Bool × Cst)) (hne : x ≠ []) (h : ∀ l ∈ x, Written E c l.2) :
    ∃ n : Cst, n.IsClause ∧ Assembled E c n .and ∧
      ∀ d, Sat E d n.tree ↔ ∀ l ∈ x, (l.1 = true ↔ Sat E d l.2.tree) := by
  induction x with
  | nil => exact absurd rfl hne
  | cons l x ih =>
    obtain ⟨a1, ⟨⟨t, a2, a3⟩, a4, a5, a6⟩, a7⟩ := literal_assembled (h l (by simp))
    cases x with
    | nil =>
      refine ⟨literalCst l, ?_, ⟨⟨t, .notAnd a2, a3⟩, a4, a5, a6⟩, fun d => by simp [a7]⟩
      revert a1
      cases literalCst l <;> first | exact id | exact fun h => h.elim
    | cons l' x =>
      obtain ⟨n, b1, ⟨⟨t', b2, b3⟩, b4, b5, b6⟩, b7⟩ := ih (by simp) fun y hy => h y (by simp [hy])
      refine ⟨.and (literalCst l) n, ⟨a1, b1⟩, ⟨⟨_, .and a2 b2 one_space one_space, fun k k' => ?_⟩, fun k => ⟨a4 k, b4 k⟩, fun k y hy => ?_,
        fun P k => ⟨a6 P k, b6 P k⟩⟩, fun d => ?_⟩
      · simp only [List.mem_append, not_or]
        exact ⟨a3 k k', by decide, by decide, by decide, b3 k k'⟩
      · rcases List.mem_append.1 hy with hy | hy
        · exact a5 k y hy
        · exact b5 k y hy
      · simp only [Cst.tree, Sat, a7, b7, List.forall_mem_cons]

theorem normal_assembled {c : Cst} (cs : List (List (Bool × Cst)))
    (h : cs ≠ [] ∧ ∀ x ∈ cs, x ≠ [] ∧ ∀ l ∈ x, Written E c l.2) :
    ∃ n : Cst, n.IsNormal ∧ Assembled E c n .or ∧ ∀ d, Sat E d n.tree ↔ ClausesHold E d cs := by
  obtain ⟨hne, h⟩ := h
  induction cs with
  | nil => exact absurd rfl hne
  | cons x cs ih =>
    obtain ⟨n1, a1, ⟨⟨t, a2, a3⟩, a4, a5, a6⟩, a7⟩ := clause_assembled x (h x (by simp)).1 (h x (by simp)).2
    cases cs with
    | nil =>
      refine ⟨n1, ?_, ⟨⟨t, .andOr a2, a3⟩, a4, a5, a6⟩, fun d => by simp [a7, ClausesHold]⟩
      revert a1
      cases n1 <;> first | exact id | exact fun h => h.elim
    | cons x' cs =>
      obtain ⟨n, b1, ⟨⟨t', b2, b3⟩, b4, b5, b6⟩, b7⟩ := ih (by simp) fun y hy => h y (by simp [hy])
      refine ⟨.or n1 n, ⟨a1, b1⟩, ⟨⟨_, .or a2 b2 one_space one_space, fun k k' => ?_⟩, fun k => ⟨a4 k, b4 k⟩, fun k y hy => ?_,
        fun P k => ⟨a6 P k, b6 P k⟩⟩, fun d => ?_⟩
      · simp only [List.mem_append, not_or]
        exact ⟨a3 k k', by decide, by decide, by decide, b3 k k'⟩
      · rcases List.mem_append.1 hy with hy | hy
        · exact a5 k y hy
        · exact b5 k y hy
      · simp only [Cst.tree, Sat, a7, b7]
        simp [ClausesHold]

/-- **C111.** Every query can be written without parentheses (but for ranges): as a disjunction of conjunctions of
comparisons with at most one literal and their negations, `NOT` before comparisons only. The text gets a matcher, and both
give the same answer on every document. If there are no ranges and no name or literal contains a parenthesis, neither does
the text, so it is parsed in cubic time (C08). -/
theorem C111_normal_form (c : Cst) (s : Str) (hc : LaidOut E c s) (m : Matcher) (ms : List Msg)
    (h : newMatcher E (utf8 s) = some (.ok (.ok (m, ms)))) :
    ∃ (n : Cst) (t : Str) (m' : Matcher) (ms' : List Msg), n.IsNormal ∧ LaidOut E n t ∧
      newMatcher E (utf8 t) = some (.ok (.ok (m', ms'))) ∧
      (∀ d, PathsIn (Plain d) c.tree → (m.match E (.valid d)).2 = (m'.match E (.valid d)).2) ∧
      (c.NoRange → (∀ w ∈ c.words, '(' ∉ w) → '(' ∉ t ∧ parseCost E t ≤ 160000 * (t.length + 1) ^ 3) := by
  obtain ⟨hb, hok, hm⟩ := root_of_text hc h
  have hl : ∃ q, Laid E .or c q := by
    obtain ⟨_, q, _, -, -, hq, -⟩ := hc
    exact ⟨q, hq⟩
  obtain ⟨q, hq⟩ := hl
  obtain ⟨n, h1, ⟨⟨t, h2, h3⟩, h4, h5, h6⟩, h7⟩ := normal_assembled _ (clauses_written hq true hok)
  have hn : LaidOut E n t := ⟨[], t, [], by decide, by decide, h2, by simp⟩
  obtain ⟨m', ms', h'⟩ := matcher_of_text hn (h4 hok) (msgRun_none.2 (h5 (msgRun_none.1 hm)))
  refine ⟨n, t, m', ms', h1, hn, h', fun d hd => ?_, fun k k' => ⟨h3 k k', C08_no_parentheses_partial E t (h3 k k')⟩⟩
  refine match_eq_of_sat (C59_ready_of_text hc h) (C59_ready_of_text hn h') hd (h6 _ hd) ?_
  rw [h7, clauses_hold]
  simp

-- `NOT (a:1 OR b:(2,3)) AND (c:exists OR d:4)` and a form without parentheses
example : clauses true (.and (.not false (.group (.or (.compare "a".toList [] [] .EQ [("1".toList, .bool true noPosition)])
      (.compare "b".toList [] [] .EQ [("2".toList, .bool true noPosition), ("3".toList, .bool true noPosition)]))))
      (.group (.noArgs "c".toList [] "exists".toList .EXS))) =
    [[(false, .compare "a".toList [] [] .EQ [("1".toList, .bool true noPosition)]),
      (false, .compare "b".toList [] [] .EQ [("2".toList, .bool true noPosition)]),
      (false, .compare "b".toList [] [] .EQ [("3".toList, .bool true noPosition)]),
      (true, .noArgs "c".toList [] "exists".toList .EXS)]] := by rfl

example : answerOf testEnv "NOT (x:1 OR y:(2,3)) AND (z:exists OR y:7)".toList exampleDoc =
      answerOf testEnv "NOT x:1 AND NOT y:2 AND NOT y:3 AND z:exists OR NOT x:1 AND NOT y:2 AND NOT y:3 AND y:7".toList exampleDoc ∧
    (answerOf testEnv "NOT (x:1 OR y:(2,3)) AND (z:exists OR y:7)".toList exampleDoc).isSome = true := by
  decide +kernel

end Aql
