import Verif.Proofs.PrintedVal
import Verif.Model.Matcher
/-!
Printed trees can be told apart.
-/

namespace Aql

open Spec

variable {E : Env}

/-- What follows a printed tree inside another, after closing parentheses: nothing or a space. -/
def AfterNode (x : Str) : Prop := x = [] ∨ ∃ r, x = ' ' :: r

theorem noSpaceDot {x : Str} (h : AfterNode x) : NoHead (fun c => c ≠ ' ' ∧ c ≠ '.') x := by
  rcases h with rfl | ⟨r, rfl⟩
  · exact noHead_nil
  · exact noHead_cons.2 (by simp)

theorem plain_name {p : Str} (h : needsQuote p = false) : ∀ c ∈ p, c ≠ ' ' ∧ c ≠ '.' ∧ c ≠ '"' := by
  unfold needsQuote at h
  rw [List.any_eq_false] at h
  intro c hc
  have := h c hc
  simp only [Bool.or_eq_true, beq_iff_eq, not_or] at this
  exact ⟨this.1.1, this.1.2, this.2⟩

/-- A printed path can be told from closing parentheses and what follows them. -/
theorem field_cut {k : Nat} {x y : Str} (hx : AfterNode x) (hy : AfterNode y) :
    ∀ {f g : List Str}, f ≠ [] → g ≠ [] →
      fieldString E f ++ (List.replicate k ')' ++ x) = fieldString E g ++ (List.replicate k ')' ++ y) → f = g ∧ x = y := by
  have par : ∀ c ∈ List.replicate k ')', c ≠ ' ' ∧ c ≠ '.' := by
    intro c hc
    rw [List.eq_of_mem_replicate hc]; decide
  have headNe : ∀ {z : Str}, AfterNode z → ∀ {d : Char} {r : Str}, List.replicate k ')' ++ z = d :: r → d = ')' ∨ d = ' ' := by
    intro z hz d r h
    cases k with
    | zero =>
      rcases hz with rfl | ⟨r', rfl⟩
      · cases h
      · injection h with h; exact .inr h.symm
    | succ k =>
      rw [List.replicate_succ, List.cons_append] at h
      injection h with h; exact .inl h.symm
  intro f
  induction f with
  | nil => intro g hf; exact absurd rfl hf
  | cons p f ih =>
    intro g _ hg h
    obtain ⟨q, g, rfl⟩ := List.exists_cons_of_ne_nil hg
    -- the text after the first segment
    have rest : ∀ (ps : List Str) (z : Str), (ps = [] ∧ fieldRest E ps ++ (List.replicate k ')' ++ z) = List.replicate k ')' ++ z) ∨
        (ps ≠ [] ∧ fieldRest E ps ++ (List.replicate k ')' ++ z) = '.' :: (fieldString E ps ++ (List.replicate k ')' ++ z))) := by
      intro ps z
      cases ps
      · exact .inl ⟨rfl, rfl⟩
      · exact .inr ⟨by simp, rfl⟩
    have finish : fieldRest E f ++ (List.replicate k ')' ++ x) = fieldRest E g ++ (List.replicate k ')' ++ y) → f = g ∧ x = y := by
      intro h
      rcases rest f x with ⟨h1, h2⟩ | ⟨h1, h2⟩ <;> rcases rest g y with ⟨h3, h4⟩ | ⟨h3, h4⟩ <;> rw [h2, h4] at h
      · exact ⟨h1.trans h3.symm, List.append_cancel_left h⟩
      · rcases headNe hx h with h | h <;> cases h
      · rcases headNe hy h.symm with h | h <;> cases h
      · injection h with _ h; exact ih h1 h3 h
    rw [fieldString_cons, fieldString_cons, List.append_assoc, List.append_assoc] at h
    unfold fieldPiece at h
    have quoted : ∀ {p q : Str} {ps : List Str} {z y : Str}, AfterNode z → needsQuote p = false →
        p ++ (fieldRest E ps ++ (List.replicate k ')' ++ z)) ≠ quote E q ++ y := by
      intro p q ps z y hz hp h
      cases p with
      | nil =>
        rcases rest ps z with ⟨h1, h2⟩ | ⟨h1, h2⟩ <;> rw [h2] at h
        · rcases headNe hz h with h | h <;> cases h
        · cases h
      | cons c p =>
        injection h with h
        exact (plain_name hp c (by simp)).2.2 h
    cases hp : needsQuote p <;> cases hq : needsQuote q <;>
      simp only [hp, hq, if_true, if_false, Bool.false_eq_true] at h
    · have np : ∀ c ∈ p, c ≠ ' ' ∧ c ≠ '.' := fun c hc => ⟨(plain_name hp c hc).1, (plain_name hp c hc).2.1⟩
      have nq : ∀ c ∈ q, c ≠ ' ' ∧ c ≠ '.' := fun c hc => ⟨(plain_name hq c hc).1, (plain_name hq c hc).2.1⟩
      have join : ∀ {p : Str}, (∀ c ∈ p, c ≠ ' ' ∧ c ≠ '.') → ∀ c ∈ p ++ List.replicate k ')', c ≠ ' ' ∧ c ≠ '.' := by
        intro p hp c hc
        rcases List.mem_append.1 hc with hc | hc
        · exact hp c hc
        · exact par c hc
      have dot : ∀ r, NoHead (fun c => c ≠ ' ' ∧ c ≠ '.') ('.' :: r) := fun r => noHead_cons.2 (by simp)
      rcases rest f x with ⟨h1, h2⟩ | ⟨h1, h2⟩ <;> rcases rest g y with ⟨h3, h4⟩ | ⟨h3, h4⟩ <;> rw [h2, h4] at h
      · rw [← List.append_assoc, ← List.append_assoc] at h
        have e := span_unique h (join np) (join nq) (noSpaceDot hx) (noSpaceDot hy)
        have e' := List.append_cancel_right e
        subst e'
        exact ⟨by rw [h1, h3], List.append_cancel_left h⟩
      · rw [← List.append_assoc] at h
        have e := span_unique h (join np) nq (noSpaceDot hx) (dot _)
        rw [e] at h
        have := List.append_cancel_left h
        rcases hx with rfl | ⟨r, rfl⟩ <;> cases this
      · rw [← List.append_assoc q] at h
        have e := span_unique h np (join nq) (dot _) (noSpaceDot hy)
        rw [e] at h
        have := List.append_cancel_left h
        rcases hy with rfl | ⟨r, rfl⟩ <;> cases this
      · have e := span_unique h np nq (dot _) (dot _)
        subst e
        have h := List.append_cancel_left h
        rw [← h2, ← h4] at h
        obtain ⟨rfl, rfl⟩ := finish h
        exact ⟨rfl, rfl⟩
    · exact absurd h (quoted hx hp)
    · exact absurd h.symm (quoted hy hq)
    · obtain ⟨rfl, h'⟩ := quote_inj h
      obtain ⟨rfl, rfl⟩ := finish h'
      exact ⟨rfl, rfl⟩

/-- Same value, same text. -/
def Twin (E : Env) (v w : Val) : Prop := SameValue v w ∧ v.toStr E = w.toStr E

theorem vals_cut : ∀ {vs ws : List Val} {x y : Str}, vs ≠ [] → ws ≠ [] → (∀ v ∈ vs, Kind E v) → (∀ w ∈ ws, Kind E w) →
    joinVals E ", ".toList vs ++ ']' :: x = joinVals E ", ".toList ws ++ ']' :: y →
    List.Forall₂ (Twin E) vs ws ∧ x = y := by
  have step : ∀ (v : Val) (vs : List Val) (x : Str), ∃ z, joinVals E ", ".toList (v :: vs) ++ ']' :: x = v.toStr E ++ z ∧ AfterVal z ∧
      ((vs = [] ∧ z = ']' :: x) ∨ (vs ≠ [] ∧ z = ',' :: ' ' :: (joinVals E ", ".toList vs ++ ']' :: x))) := by
    intro v vs x
    cases vs with
    | nil => exact ⟨']' :: x, rfl, ⟨_, _, rfl, by simp⟩, .inl ⟨rfl, rfl⟩⟩
    | cons w vs => exact ⟨',' :: ' ' :: (joinVals E ", ".toList (w :: vs) ++ ']' :: x), by simp [joinVals],
        ⟨_, _, rfl, by simp⟩, .inr ⟨by simp, rfl⟩⟩
  intro vs
  induction vs with
  | nil => intro ws x y h; exact absurd rfl h
  | cons v vs ih =>
    intro ws x y _ hw kv kw h
    obtain ⟨w, ws, rfl⟩ := List.exists_cons_of_ne_nil hw
    obtain ⟨z1, e1, a1, c1⟩ := step v vs x
    obtain ⟨z2, e2, a2, c2⟩ := step w ws y
    rw [e1, e2] at h
    obtain ⟨s1, s2, rfl⟩ := kind_cut (kv v (by simp)) (kw w (by simp)) a1 a2 h
    rcases c1 with ⟨rfl, rfl⟩ | ⟨n1, rfl⟩ <;> rcases c2 with ⟨rfl, c2⟩ | ⟨n2, c2⟩
    · injection c2 with _ c2
      exact ⟨.cons ⟨s1, s2⟩ .nil, c2⟩
    · cases c2
    · cases c2
    · injection c2 with _ c2
      injection c2 with _ c2
      obtain ⟨h1, h2⟩ := ih n1 n2 (fun v hv => kv v (by simp [hv])) (fun v hv => kw v (by simp [hv])) c2
      exact ⟨.cons ⟨s1, s2⟩ h1, h2⟩

/-- Trees of queries whose printed form can be told apart. -/
def Readable (E : Env) : Node → Prop
  | .and l r => Readable E l ∧ Readable E r
  | .or l r => Readable E l ∧ Readable E r
  | .not e => Readable E e
  | .subdoc _ _ => False
  | .expr op f vs _ => f ≠ [] ∧ (vs = [] ↔ op = .EXS ∨ op = .NUL) ∧ ∀ v ∈ vs, Kind E v

/-- The same tree with the same texts. -/
inductive TwinTree (E : Env) : Node → Node → Prop
  | and {l r l' r'} : TwinTree E l l' → TwinTree E r r' → TwinTree E (.and l r) (.and l' r')
  | or {l r l' r'} : TwinTree E l l' → TwinTree E r r' → TwinTree E (.or l r) (.or l' r')
  | not {e e'} : TwinTree E e e' → TwinTree E (.not e) (.not e')
  | expr {op f vs ws p q} : List.Forall₂ (Twin E) vs ws → TwinTree E (.expr op f vs p) (.expr op f ws q)

theorem opText_cut {o o' : Op} {x y : Str} (h : o.text ++ ' ' :: x = o'.text ++ ' ' :: y) : o = o' ∧ x = y := by
  have ns : ∀ o : Op, ∀ c ∈ o.text, c ≠ ' ' := by intro o; cases o <;> decide
  have e := span_unique h (ns o) (ns o') (noHead_cons.2 (by simp)) (noHead_cons.2 (by simp))
  rw [e] at h
  have h := List.append_cancel_left h
  injection h with _ h
  refine ⟨?_, h⟩
  cases o <;> cases o' <;> first | rfl | exact absurd e (by decide)

/-- The values of a comparison as printed. -/
def argsText (E : Env) (vs : List Val) : Str :=
  match vs with
  | [] => []
  | [v] => " ".toList ++ v.toStr E
  | vs => " [".toList ++ joinVals E ", ".toList vs ++ "]".toList

theorem exprStr (op : Op) (f : List Str) (vs : List Val) (p : Pos) : (Node.expr op f vs p).toStr E =
    "(".toList ++ op.text ++ " ".toList ++ fieldString E f ++ argsText E vs ++ ")".toList := rfl

theorem args_cut {vs ws : List Val} {x y : Str} (kv : ∀ v ∈ vs, Kind E v) (kw : ∀ w ∈ ws, Kind E w) (hv : vs ≠ []) (hw : ws ≠ [])
    (h : argsText E vs ++ ')' :: x = argsText E ws ++ ')' :: y) :
    List.Forall₂ (Twin E) vs ws ∧ x = y := by
  have br : ∀ {v : Val}, Kind E v → ∀ {z r : Str}, v.toStr E ++ z ≠ '[' :: r := by
    intro v k z r h
    obtain ⟨c, u, e, b⟩ := kind_cons k
    rw [e] at h
    injection h with h _
    subst h
    cases v <;> first | exact absurd (And.left b) (by decide) | (replace b : _ = _ := b; revert b; decide)
  obtain ⟨v, vs, rfl⟩ := List.exists_cons_of_ne_nil hv
  obtain ⟨w, ws, rfl⟩ := List.exists_cons_of_ne_nil hw
  cases vs with
  | nil =>
    cases ws with
    | nil =>
      obtain ⟨s1, s2, s3⟩ := kind_cut (kv v (by simp)) (kw w (by simp)) ⟨_, _, rfl, .inl rfl⟩ ⟨_, _, rfl, .inl rfl⟩
        (show v.toStr E ++ ')' :: x = w.toStr E ++ ')' :: y by simpa [argsText] using h)
      injection s3 with _ s3
      exact ⟨.cons ⟨s1, s2⟩ .nil, s3⟩
    | cons w' ws =>
      exfalso
      simp only [argsText, String.reduceToList, List.cons_append, List.nil_append, List.cons.injEq, true_and, List.append_assoc] at h
      exact br (kv v (by simp)) h
  | cons v' vs =>
    cases ws with
    | nil =>
      exfalso
      simp only [argsText, String.reduceToList, List.cons_append, List.nil_append, List.cons.injEq, true_and, List.append_assoc] at h
      exact br (kw w (by simp)) h.symm
    | cons w' ws =>
      simp only [argsText, String.reduceToList, List.cons_append, List.nil_append, List.cons.injEq, true_and, List.append_assoc] at h
      obtain ⟨s1, s2⟩ := vals_cut (by simp) (by simp) kv kw h
      injection s2 with _ s2
      exact ⟨s1, s2⟩

theorem expr_head (op : Op) (z : Str) : ∃ c r, op.text ++ z = c :: r ∧ c ≠ '&' ∧ c ≠ '|' ∧ c ≠ '!' := by
  cases op <;> exact ⟨_, _, rfl, by decide, by decide, by decide⟩

theorem node_cut : ∀ {m n : Node} {k : Nat} {x y : Str}, Readable E m → Readable E n → AfterNode x → AfterNode y →
    m.toStr E ++ (List.replicate k ')' ++ x) = n.toStr E ++ (List.replicate k ')' ++ y) → TwinTree E m n ∧ x = y := by
  have close : ∀ (k : Nat) (x : Str), ')' :: (List.replicate k ')' ++ x) = List.replicate (k + 1) ')' ++ x := by
    intro k x; rw [List.replicate_succ]; rfl
  intro m
  induction m with
  | and l r ihl ihr =>
    intro n k x y hm hn hx hy h
    cases n with
    | and l' r' =>
      simp only [Node.toStr, String.reduceToList, List.cons_append, List.nil_append, List.append_assoc, List.cons.injEq, true_and, close] at h
      obtain ⟨h1, h2⟩ := ihl (k := 0) hm.1 hn.1 (.inr ⟨_, rfl⟩) (.inr ⟨_, rfl⟩) h
      injection h2 with _ h2
      obtain ⟨h3, h4⟩ := ihr hm.2 hn.2 hx hy h2
      exact ⟨.and h1 h3, h4⟩
    | or => simp [Node.toStr] at h
    | not => simp [Node.toStr] at h
    | subdoc => exact hn.elim
    | expr op f vs p =>
      simp only [Node.toStr, String.reduceToList, List.cons_append, List.nil_append, List.append_assoc, List.cons.injEq, true_and] at h
      obtain ⟨c, r, e, h1, -⟩ := expr_head op _
      rw [e] at h
      injection h with h; exact absurd h.symm h1
  | or l r ihl ihr =>
    intro n k x y hm hn hx hy h
    cases n with
    | or l' r' =>
      simp only [Node.toStr, String.reduceToList, List.cons_append, List.nil_append, List.append_assoc, List.cons.injEq, true_and, close] at h
      obtain ⟨h1, h2⟩ := ihl (k := 0) hm.1 hn.1 (.inr ⟨_, rfl⟩) (.inr ⟨_, rfl⟩) h
      injection h2 with _ h2
      obtain ⟨h3, h4⟩ := ihr hm.2 hn.2 hx hy h2
      exact ⟨.or h1 h3, h4⟩
    | and => simp [Node.toStr] at h
    | not => simp [Node.toStr] at h
    | subdoc => exact hn.elim
    | expr op f vs p =>
      simp only [Node.toStr, String.reduceToList, List.cons_append, List.nil_append, List.append_assoc, List.cons.injEq, true_and] at h
      obtain ⟨c, r, e, -, h1, -⟩ := expr_head op _
      rw [e] at h
      injection h with h; exact absurd h.symm h1
  | not e ih =>
    intro n k x y hm hn hx hy h
    cases n with
    | not e' =>
      simp only [Node.toStr, String.reduceToList, List.cons_append, List.nil_append, List.append_assoc, List.cons.injEq, true_and, close] at h
      obtain ⟨h1, h2⟩ := ih (n := e') hm hn hx hy h
      exact ⟨.not h1, h2⟩
    | and => simp [Node.toStr] at h
    | or => simp [Node.toStr] at h
    | subdoc => exact hn.elim
    | expr op f vs p =>
      simp only [Node.toStr, String.reduceToList, List.cons_append, List.nil_append, List.append_assoc, List.cons.injEq, true_and] at h
      obtain ⟨c, r, e, -, -, h1⟩ := expr_head op _
      rw [e] at h
      injection h with h; exact absurd h.symm h1
  | subdoc => intro n k x y hm; exact hm.elim
  | expr op f vs p =>
    intro n k x y hm hn hx hy h
    cases n with
    | and =>
      simp only [Node.toStr, String.reduceToList, List.cons_append, List.nil_append, List.append_assoc, List.cons.injEq, true_and] at h
      obtain ⟨c, r, e, h1, -⟩ := expr_head op _
      rw [e] at h
      injection h with h; exact absurd h h1
    | or =>
      simp only [Node.toStr, String.reduceToList, List.cons_append, List.nil_append, List.append_assoc, List.cons.injEq, true_and] at h
      obtain ⟨c, r, e, -, h1, -⟩ := expr_head op _
      rw [e] at h
      injection h with h; exact absurd h h1
    | not =>
      simp only [Node.toStr, String.reduceToList, List.cons_append, List.nil_append, List.append_assoc, List.cons.injEq, true_and] at h
      obtain ⟨c, r, e, -, -, h1⟩ := expr_head op _
      rw [e] at h
      injection h with h; exact absurd h h1
    | subdoc => exact hn.elim
    | expr op' f' vs' p' =>
      rw [exprStr, exprStr] at h
      simp only [String.reduceToList, List.cons_append, List.nil_append, List.append_assoc, List.cons.injEq, true_and] at h
      obtain ⟨rfl, h'⟩ := opText_cut h
      clear h; rename' h' => h
      obtain ⟨f1, o1, k1⟩ := hm
      obtain ⟨f2, o2, k2⟩ := hn
      by_cases hz : op = .EXS ∨ op = .NUL
      · have hv := o1.2 hz
        have hw := o2.2 hz
        subst hv; subst hw
        simp only [argsText, List.nil_append, close] at h
        obtain ⟨rfl, rfl⟩ := field_cut hx hy f1 f2 h
        exact ⟨.expr .nil, rfl⟩
      · have hv : vs ≠ [] := fun h => hz (o1.1 h)
        have hw : vs' ≠ [] := fun h => hz (o2.1 h)
        have sp : ∀ {vs : List Val} {z : Str}, vs ≠ [] → AfterNode (argsText E vs ++ z) := by
          intro vs z h
          match vs, h with
          | [v], _ => exact .inr ⟨_, rfl⟩
          | v :: w :: vs, _ => exact .inr ⟨_, rfl⟩
        obtain ⟨rfl, h'⟩ := field_cut (k := 0) (sp hv) (sp hw) f1 f2 h
        obtain ⟨h1, h2⟩ := args_cut k1 k2 hv hw h'
        exact ⟨.expr h1, List.append_cancel_left h2⟩

/-! ### What the trees of queries are like -/

theorem items_kind {pre s : Str} {vs : List Val} (h : Items E pre s vs) : ∀ v ∈ vs, ∃ pre t, Lit E pre t v := by
  induction h with
  | one h => intro v hv; rw [List.mem_singleton.1 hv]; exact ⟨_, _, h⟩
  | cons h _ _ _ ih =>
    intro v hv
    rcases List.mem_cons.1 hv with rfl | hv
    · exact ⟨_, _, h⟩
    · exact ih v hv

theorem values_kind {pre s : Str} {vs : List Val} (h : Values E pre s vs) : vs ≠ [] ∧ ∀ v ∈ vs, ∃ pre t, Lit E pre t v := by
  cases h with
  | one h => exact ⟨by simp, by intro v hv; rw [List.mem_singleton.1 hv]; exact ⟨_, _, h⟩⟩
  | list _ h h2 _ => exact ⟨(by rintro rfl; simp at h2), items_kind h⟩

theorem text_readable {L : Level} {pre s : Str} {n : Node} (h : Text E L pre s n) (hl : Legible n) : Readable E n := by
  induction h with
  | group _ _ _ ih => exact ih hl
  | noArgs _ _ _ ho _ =>
    refine ⟨hl.1, ?_, by simp⟩
    cases ho <;> simp
  | compare _ _ _ ho _ hv _ =>
    obtain ⟨h1, h2⟩ := values_kind hv
    refine ⟨hl.1, ⟨fun h => absurd h h1, ?_⟩, ?_⟩
    · intro h; cases ho <;> simp at h
    · intro v hv
      obtain ⟨_, _, h⟩ := h2 v hv
      exact lit_kind h (hl.2 v hv)
  | notCmp _ ih => exact ih hl
  | not _ _ ih => exact ih hl
  | andNot _ ih => exact ih hl
  | and _ _ _ _ ih1 ih2 => exact ⟨ih1 hl.1, ih2 hl.2⟩
  | orAnd _ ih => exact ih hl
  | or _ _ _ _ ih1 ih2 => exact ⟨ih1 hl.1, ih2 hl.2⟩

/-! ### The same tree builds the same matcher -/

theorem twinTree_same {m n : Node} (h : TwinTree E m n) : SameTree m n := by
  induction h with
  | and _ _ h1 h2 => exact .and h1 h2
  | or _ _ h1 h2 => exact .or h1 h2
  | not _ h => exact .not h
  | expr h => exact .expr (h.imp fun _ _ h => h.1)

theorem standsFor_const {v : Val} {f : F64} (h : StandsFor v f) : betweenConst v = f ∧ eqMatcher E v = .ok (.float f (.fin 0) .EQ) ∧
    (∀ op, exprNumeric op [v] = .ok (.float f (.fin 0) op)) ∧
    ∀ w, exprBetween [v, w] = .ok (.float f (betweenConst w) .BET) := by
  cases h <;> exact ⟨rfl, rfl, fun _ => rfl, fun _ => rfl⟩

theorem same_const {v w : Val} (h : SameValue v w) : betweenConst v = betweenConst w := by
  cases h with
  | number h1 h2 => rw [(standsFor_const (E := testEnv) h1).1, (standsFor_const (E := testEnv) h2).1]
  | _ => rfl

theorem same_eq {v w : Val} (h : SameValue v w) : eqMatcher E v = eqMatcher E w := by
  cases h with
  | number h1 h2 => rw [(standsFor_const h1).2.1, (standsFor_const h2).2.1]
  | _ => rfl

theorem same_numeric {v w : Val} (op : Op) (h : SameValue v w) : exprNumeric op [v] = exprNumeric op [w] := by
  cases h with
  | number h1 h2 => rw [(standsFor_const (E := testEnv) h1).2.2.1, (standsFor_const (E := testEnv) h2).2.2.1]
  | _ => rfl

theorem standsFor_notTime {v : Val} {f : F64} (h : StandsFor v f) : ∀ s i d p, v ≠ .time s i d p := by
  cases h <;> (intro s i d p h; cases h)

theorem same_between {v w v' w' : Val} (h : SameValue v w) (h' : SameValue v' w') : exprBetween [v, v'] = exprBetween [w, w'] := by
  cases h with
  | number h1 h2 =>
    rw [(standsFor_const (E := testEnv) h1).2.2.2, (standsFor_const (E := testEnv) h2).2.2.2, same_const h']
  | time =>
    cases h' with
    | number h1 h2 =>
      rename_i f
      generalize f = g at h2
      cases h1 <;> cases h2 <;> rfl
    | _ => rfl
  | _ => rfl

theorem twin_build {op : Op} {vs ws : List Val} (h : List.Forall₂ (Twin E) vs ws) : buildExprs E op vs = buildExprs E op ws := by
  have num : exprNumeric op vs = exprNumeric op ws := by
    cases h with
    | nil => rfl
    | cons h t =>
      cases t with
      | nil => exact same_numeric op h.1
      | cons => simp [exprNumeric]
  have bet : exprBetween vs = exprBetween ws := by
    cases h with
    | nil => rfl
    | cons h t =>
      cases t with
      | nil => rfl
      | cons h' t =>
        cases t with
        | nil => exact same_between h.1 h'.1
        | cons => rfl
  have eq : exprEQ E vs = exprEQ E ws := by
    have : mapGo (eqMatcher E) vs = mapGo (eqMatcher E) ws := by
      clear num bet
      induction h with
      | nil => rfl
      | cons h t ih => simp only [mapGo, same_eq h.1, ih]
    cases h with
    | nil => rfl
    | cons => exact this
  cases op <;> simp only [buildExprs, eq, bet] <;> rw [num]

theorem joinVals_twin {sep : Str} {vs ws : List Val} (h : List.Forall₂ (Twin E) vs ws) : joinVals E sep vs = joinVals E sep ws := by
  induction h with
  | nil => rfl
  | cons h t ih =>
    cases t with
    | nil => exact h.2
    | cons => simp only [joinVals, h.2] at ih ⊢; rw [ih]

theorem twinTree_build {m n : Node} (h : TwinTree E m n) : build E m = build E n := by
  induction h with
  | and _ _ h1 h2 => simp only [build, h1, h2]
  | or _ _ h1 h2 => simp only [build, h1, h2]
  | not _ h => simp only [build, h]
  | @expr op f vs ws p q h =>
    have : friendlyString E op f vs = friendlyString E op f ws := by
      cases h with
      | nil => rfl
      | cons h t =>
        cases t with
        | nil => simp only [friendlyString, h.2]
        | cons h' t => simp only [friendlyString, joinVals_twin (List.Forall₂.cons h (.cons h' t))]
    simp only [build, twin_build h, this]

end Aql
