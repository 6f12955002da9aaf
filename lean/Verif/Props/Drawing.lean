import Verif.Props.Graph
import Verif.Props.GraphLabel
import Verif.Props.Printed
/-!
Property C99: the drawing of a query tells trees apart.
-/

namespace Aql

namespace Spec

/-- Two graphs are drawn alike: they differ only in the names of nodes and edges. -/
def DrawnAlike (g h : GState) : Prop :=
  ∃ ren : Str → Str, (∀ m ∈ g.nodes, ∀ n ∈ g.nodes, ren m.name = ren n.name → m.name = n.name) ∧
    (g.nodes.map fun n => (ren n.name, n.face)).Perm (h.nodes.map fun n => (n.name, n.face)) ∧
    (g.edges.map fun e => (ren e.tail, ren e.head, e.heavy)).Perm (h.edges.map fun e => (e.tail, e.head, e.heavy))

/-- Trees that look alike: the same connectives around comparisons with the same operator, the same segments joined
by dots, and values of the same types and texts. -/
inductive LookAlike (E : Env) : Node → Node → Prop
  | and {l r l' r'} : LookAlike E l l' → LookAlike E r r' → LookAlike E (.and l r) (.and l' r')
  | or {l r l' r'} : LookAlike E l l' → LookAlike E r r' → LookAlike E (.or l r) (.or l' r')
  | not {e e'} : LookAlike E e e' → LookAlike E (.not e) (.not e')
  | expr {op f g vs ws p q} : List.intercalate ['.'] f = List.intercalate ['.'] g →
      List.Forall₂ (fun v w => typeOf v = typeOf w ∧ v.toStr E = w.toStr E) vs ws →
      LookAlike E (.expr op f vs p) (.expr op g ws q)

/-- No path is empty or has a name with a dot. -/
def Clear : Node → Prop
  | .and l r => Clear l ∧ Clear r
  | .or l r => Clear l ∧ Clear r
  | .not e => Clear e
  | .subdoc _ e => Clear e
  | .expr _ f _ _ => f ≠ [] ∧ ∀ x ∈ f, '.' ∉ x

end Spec

open Spec

variable {E : Env}

theorem nodeAt_append : ∀ (n : Node) (a b : List Bool), nodeAt n (a ++ b) = (nodeAt n a).bind (nodeAt · b)
  | n, [], b => by cases n <;> rfl
  | .and l _, false :: a, b => nodeAt_append l a b
  | .or l _, false :: a, b => nodeAt_append l a b
  | .and _ r, true :: a, b => nodeAt_append r a b
  | .or _ r, true :: a, b => nodeAt_append r a b
  | .not e, false :: a, b => nodeAt_append e a b
  | .subdoc _ e, false :: a, b => nodeAt_append e a b
  | .not _, true :: _, _ => rfl
  | .subdoc .., true :: _, _ => rfl
  | .expr .., x :: _, _ => by cases x <;> rfl

theorem graphType_inj {s t : ValType} (h : graphType s = graphType t) : s = t := by
  revert h; cases s <;> cases t <;> decide

theorem rows_same : ∀ {vs ws : List Val}, (vs.map fun v => (graphType v.type, v.toStr E)) = (ws.map fun v => (graphType v.type, v.toStr E)) →
    List.Forall₂ (fun v w => typeOf v = typeOf w ∧ v.toStr E = w.toStr E) vs ws
  | [], [], _ => .nil
  | [], _ :: _, h => by cases h
  | _ :: _, [], h => by cases h
  | v :: vs, w :: ws, h => by
    simp only [List.map_cons, List.cons.injEq, Prod.mk.injEq] at h
    exact .cons ⟨by rw [typeOf_eq, typeOf_eq]; exact graphType_inj h.1.1, h.1.2⟩ (rows_same h.2)

theorem rows_eq {vs ws : List Val} (h : List.Forall₂ (fun v w => typeOf v = typeOf w ∧ v.toStr E = w.toStr E) vs ws) :
    (vs.map fun v => (graphType v.type, v.toStr E)) = (ws.map fun v => (graphType v.type, v.toStr E)) := by
  induction h with
  | nil => rfl
  | cons h _ ih =>
    have h1 := h.1
    rw [typeOf_eq, typeOf_eq] at h1
    simp only [List.map_cons, ih, h1, h.2]

theorem drawnOp_inj {o o' : Op} (h : o.text = o'.text) : o = o' := by
  revert h; cases o <;> cases o' <;> decide

theorem lookAlike_visit {m n : Node} (h : LookAlike E m n) : ∀ g, visitNodes E g m = visitNodes E g n := by
  induction h with
  | and _ _ h1 h2 => intro g; simp only [visitNodes, h1, h2]; rfl
  | or _ _ h1 h2 => intro g; simp only [visitNodes, h1, h2]; rfl
  | not _ h1 => intro g; simp only [visitNodes, h1]; rfl
  | @expr op f g vs ws p q h1 h2 =>
    intro s
    simp only [visitNodes, nodeFace, nodeLabel, joinDots_inter, h1, rows_eq h2]

theorem drawnAlike_refl (g : GState) : DrawnAlike g g :=
  ⟨id, fun _ _ _ _ h => h, .refl _, .refl _⟩

theorem alike_look {m n : Node} (hm : NoSubdoc m) (hn : NoSubdoc n) (h : DrawnAlike (queryGraph E m) (queryGraph E n)) :
    LookAlike E m n := by
  obtain ⟨ren, -, hnodes, hedges⟩ := h
  obtain ⟨nm, m1, m2, m3, m4, -⟩ := graph_parts (E := E) m hm
  obtain ⟨nn, n1, n2, n3, n4, -⟩ := graph_parts (E := E) n hn
  have memN : ∀ {x : Str} {f : Face}, (∃ k ∈ (queryGraph E m).nodes, ren k.name = x ∧ k.face = f) →
      (x = "start".toList ∧ f = ⟨.point, "point".toList, []⟩) ∨ ∃ b ∈ addresses n, x = nn b ∧ f = faceAt E n b := by
    rintro x f ⟨k, hk, rfl, rfl⟩
    have := hnodes.subset (List.mem_map.2 ⟨k, hk, rfl⟩)
    rw [n1] at this
    simp only [List.map_cons, List.map_map, List.mem_cons, List.mem_map, Prod.mk.injEq, Function.comp_def] at this
    rcases this with ⟨h1, h2⟩ | ⟨b, hb, h1, h2⟩
    · exact .inl ⟨h1, h2⟩
    · exact .inr ⟨b, hb, h1.symm, h2.symm⟩
  have memE : ∀ {t h : Str} {w : Bool}, ((t, h, w) = ("start".toList, nm [], true) ∨
      ∃ a ∈ (addresses m).tail, (t, h, w) = (nm a.dropLast, nm a, isLeft a)) →
      (ren t, ren h, w) = ("start".toList, nn [], true) ∨
      ∃ b ∈ (addresses n).tail, (ren t, ren h, w) = (nn b.dropLast, nn b, isLeft b) := by
    intro t h w hc
    have : (t, h, w) ∈ (queryGraph E m).edges.map fun e => (e.tail, e.head, e.heavy) := by
      refine m4.symm.subset ?_
      rcases hc with hc | ⟨a, ha, hc⟩
      · rw [hc]; exact List.mem_cons_self
      · rw [hc]; exact List.mem_cons_of_mem _ (List.mem_map.2 ⟨a, ha, rfl⟩)
    obtain ⟨e, he, hq⟩ := List.mem_map.1 this
    cases hq
    have := n4.subset (hedges.subset (List.mem_map.2 ⟨e, he, rfl⟩))
    rcases List.mem_cons.1 this with h | h
    · exact .inl h
    · obtain ⟨b, hb, h⟩ := List.mem_map.1 h
      exact .inr ⟨b, hb, h.symm⟩
  have tailMem : ∀ {r : Node} {a : List Bool}, a ∈ (addresses r).tail → a ∈ addresses r := fun h => List.mem_of_mem_tail h
  have dropMem : ∀ {r : Node} {a : List Bool}, a ∈ addresses r → a.dropLast ∈ addresses r := by
    intro r a ha
    rw [(C54_addresses r).2] at ha ⊢
    rcases List.eq_nil_or_concat a with rfl | ⟨a', x, rfl⟩
    · exact ha
    · rw [List.concat_eq_append] at ha ⊢
      rw [List.dropLast_concat]
      rw [nodeAt_append] at ha
      cases h : nodeAt r a' with
      | none => rw [h] at ha; cases ha
      | some _ => rfl
  have nilMem : ∀ r : Node, [] ∈ addresses r := fun r => by rw [(C54_addresses r).2]; cases r <;> rfl
  have root : ren (nm []) = nn [] := by
    have hstart : ren "start".toList = "start".toList := by
      rcases memN ⟨_, by rw [m1]; exact List.mem_cons_self, rfl, rfl⟩ with h | ⟨b, hb, -, h⟩
      · exact h.1
      · exfalso
        have hs := ((C54_addresses n).2 b).1 hb
        unfold faceAt at h
        cases hx : nodeAt n b with
        | none => rw [hx] at hs; cases hs
        | some x => rw [hx] at h; cases x <;> cases h
    rcases memE (.inl rfl) with h | ⟨b, hb, h⟩
    · exact congrArg (fun x => x.2.1) h
    · exact absurd (hstart.symm.trans (congrArg Prod.fst h)).symm (n3 _ (dropMem (tailMem hb)))
  have child : ∀ {a b : List Bool} {x : Bool}, a ++ [x] ∈ addresses m → b ∈ addresses n → ren (nm a) = nn b →
      b ++ [x] ∈ addresses n ∧ ren (nm (a ++ [x])) = nn (b ++ [x]) := by
    intro a b x ha hb hr
    have ht : a ++ [x] ∈ (addresses m).tail := by
      obtain ⟨t, ht⟩ := addresses_head m
      rw [ht] at ha ⊢
      rcases List.mem_cons.1 ha with h | h
      · simp at h
      · exact h
    rcases memE (.inr ⟨_, ht, rfl⟩) with h | ⟨c, hc, h⟩
    · rw [List.dropLast_concat, hr] at h
      exact absurd (congrArg Prod.fst h) (n3 _ hb)
    · rw [List.dropLast_concat, hr] at h
      have h1 := n2 _ hb _ (dropMem (tailMem hc)) (congrArg Prod.fst h)
      have h2 : ren (nm (a ++ [x])) = nn c := congrArg (fun x => x.2.1) h
      have h3 : isLeft (a ++ [x]) = isLeft c := congrArg (fun x => x.2.2) h
      rcases List.eq_nil_or_concat c with rfl | ⟨c', y, rfl⟩
      · exact absurd rfl (addresses_tail_ne hc)
      · rw [List.concat_eq_append] at h1 h2 h3 hc
        rw [List.dropLast_concat] at h1
        subst h1
        have : x = y := by
          unfold isLeft at h3
          rw [List.getLast?_concat, List.getLast?_concat] at h3
          revert h3; cases x <;> cases y <;> decide
        subst this
        exact ⟨tailMem hc, h2⟩
  have main : ∀ (x : Node) (a b : List Bool), NoSubdoc x → nodeAt m a = some x → b ∈ addresses n → ren (nm a) = nn b →
      ∃ y, nodeAt n b = some y ∧ LookAlike E x y := by
    intro x
    have here : ∀ {x : Node} {a b : List Bool}, nodeAt m a = some x → b ∈ addresses n → ren (nm a) = nn b →
        ∃ y, nodeAt n b = some y ∧ nodeFace E x = nodeFace E y := by
      intro x a b hx hb hr
      have ha : a ∈ addresses m := by rw [(C54_addresses m).2, hx]; rfl
      have hb' := ((C54_addresses n).2 b).1 hb
      obtain ⟨y, hy⟩ := Option.isSome_iff_exists.1 hb'
      refine ⟨y, hy, ?_⟩
      rcases memN ⟨⟨nm a, faceAt E m a⟩, by rw [m1]; exact List.mem_cons_of_mem _ (List.mem_map.2 ⟨a, ha, rfl⟩), rfl, rfl⟩ with h | ⟨c, hc, h1, h2⟩
      · exact absurd (hr.symm.trans h.1) (n3 _ hb)
      · have := n2 _ hb _ hc (hr.symm.trans h1)
        subst this
        unfold faceAt at h2
        rw [hx, hy] at h2
        exact h2
    have step : ∀ {x y z : Node} {a b : List Bool} {d : Bool}, nodeAt m a = some x → nodeAt x [d] = some z → b ∈ addresses n →
        ren (nm a) = nn b → nodeAt m (a ++ [d]) = some z ∧ b ++ [d] ∈ addresses n ∧ ren (nm (a ++ [d])) = nn (b ++ [d]) := by
      intro x y z a b d hx hz hb hr
      have h1 : nodeAt m (a ++ [d]) = some z := by rw [nodeAt_append, hx]; exact hz
      obtain ⟨h2, h3⟩ := child (x := d) (by rw [(C54_addresses m).2, h1]; rfl) hb hr
      exact ⟨h1, h2, h3⟩
    have down : ∀ {y z : Node} {b : List Bool} {d : Bool}, nodeAt n b = some y → nodeAt n (b ++ [d]) = some z → nodeAt y [d] = some z := by
      intro y z b d h1 h2
      rw [nodeAt_append, h1] at h2
      exact h2
    induction x with
    | subdoc => intro a b h; exact absurd h (by simp [NoSubdoc])
    | expr op f vs p =>
      intro a b _ hx hb hr
      obtain ⟨y, hy, h⟩ := here hx hb hr
      refine ⟨y, hy, ?_⟩
      have h := congrArg Face.label h
      cases y with
      | expr op' f' vs' p' =>
        simp only [nodeFace, nodeLabel, Label.table.injEq] at h
        obtain ⟨h1, h2, h3⟩ := h
        rw [drawnOp_inj h2]
        exact .expr (by rw [← joinDots_inter, ← joinDots_inter, h1]) (rows_same h3)
      | _ => simp [nodeFace, nodeLabel] at h
    | not e ih =>
      intro a b hs hx hb hr
      obtain ⟨y, hy, h⟩ := here hx hb hr
      refine ⟨y, hy, ?_⟩
      have h := congrArg Face.label h
      cases y with
      | not e' =>
        obtain ⟨k1, k2, k3⟩ := step (y := .not e') (z := e) (d := false) hx (by cases e <;> rfl) hb hr
        obtain ⟨z, hz, l⟩ := ih _ _ hs k1 k2 k3
        have := down hy hz
        cases this.symm.trans (show nodeAt (.not e') [false] = some e' by cases e' <;> rfl)
        exact .not l
      | _ => simp [nodeFace, nodeLabel] at h
    | and l r ihl ihr =>
      intro a b hs hx hb hr
      obtain ⟨y, hy, h⟩ := here hx hb hr
      refine ⟨y, hy, ?_⟩
      have h := congrArg Face.label h
      cases y with
      | and l' r' =>
        obtain ⟨k1, k2, k3⟩ := step (y := .and l' r') (z := l) (d := false) hx (by cases l <;> rfl) hb hr
        obtain ⟨z, hz, q1⟩ := ihl _ _ hs.1 k1 k2 k3
        cases (down hy hz).symm.trans (show nodeAt (.and l' r') [false] = some l' by cases l' <;> rfl)
        obtain ⟨k1, k2, k3⟩ := step (y := .and l' r') (z := r) (d := true) hx (by cases r <;> rfl) hb hr
        obtain ⟨z, hz, q2⟩ := ihr _ _ hs.2 k1 k2 k3
        cases (down hy hz).symm.trans (show nodeAt (.and l' r') [true] = some r' by cases r' <;> rfl)
        exact .and q1 q2
      | _ => simp [nodeFace, nodeLabel] at h
    | or l r ihl ihr =>
      intro a b hs hx hb hr
      obtain ⟨y, hy, h⟩ := here hx hb hr
      refine ⟨y, hy, ?_⟩
      have h := congrArg Face.label h
      cases y with
      | or l' r' =>
        obtain ⟨k1, k2, k3⟩ := step (y := .or l' r') (z := l) (d := false) hx (by cases l <;> rfl) hb hr
        obtain ⟨z, hz, q1⟩ := ihl _ _ hs.1 k1 k2 k3
        cases (down hy hz).symm.trans (show nodeAt (.or l' r') [false] = some l' by cases l' <;> rfl)
        obtain ⟨k1, k2, k3⟩ := step (y := .or l' r') (z := r) (d := true) hx (by cases r <;> rfl) hb hr
        obtain ⟨z, hz, q2⟩ := ihr _ _ hs.2 k1 k2 k3
        cases (down hy hz).symm.trans (show nodeAt (.or l' r') [true] = some r' by cases r' <;> rfl)
        exact .or q1 q2
      | _ => simp [nodeFace, nodeLabel] at h
  obtain ⟨y, hy, h⟩ := main m [] [] hm (by cases m <;> rfl) (nilMem n) root
  rw [show nodeAt n [] = some n by cases n <;> rfl] at hy
  cases hy
  exact h

/-! ### Values and paths -/

theorem lit_twin {pre t pre' t' : Str} {v w : Val} (hv : Lit E pre t v) (hw : Lit E pre' t' w)
    (ht : typeOf v = typeOf w) (h : v.toStr E = w.toStr E) : Twin E v w := by
  refine ⟨?_, h⟩
  have kind : ∀ {pre t : Str} {v : Val}, Lit E pre t v → (∀ u s p, v ≠ .regex u s p) → Kind E v := by
    intro pre t v hv hr
    refine lit_kind hv ?_
    cases v with
    | regex => exact absurd rfl (hr _ _ _)
    | _ => trivial
  cases v with
  | str s p =>
    cases w with
    | str s' p' =>
      have : quote E s ++ [] = quote E s' ++ [] := by simpa [Val.toStr] using h
      obtain ⟨rfl, -⟩ := quote_inj this
      exact .str
    | _ => cases ht
  | regex u src p =>
    cases w with
    | regex u' src' p' =>
      have : u = u' := h
      subst this
      cases hv with
      | regex _ _ _ h4 _ =>
        cases hw with
        | regex _ _ _ k4 _ =>
          rw [← trimmed_iff.1 h4, ← trimmed_iff.1 k4]
          exact .regex
    | _ => cases ht
  | _ =>
    cases w with
    | str => cases ht
    | regex => cases ht
    | _ => exact kind_same (kind hv (by simp)) (kind hw (by simp)) trivial trivial h

/-- All values were written as literals. -/
def Literal (E : Env) : Node → Prop
  | .and l r => Literal E l ∧ Literal E r
  | .or l r => Literal E l ∧ Literal E r
  | .not e => Literal E e
  | .subdoc _ _ => False
  | .expr _ _ vs _ => ∀ v ∈ vs, ∃ pre t, Lit E pre t v

theorem text_literal {L : Level} {pre s : Str} {n : Node} (h : Text E L pre s n) : Literal E n := by
  induction h with
  | group _ _ _ ih => exact ih
  | noArgs => simp [Literal]
  | compare _ _ _ _ _ hv _ => exact (values_kind hv).2
  | notCmp _ ih => exact ih
  | not _ _ ih => exact ih
  | andNot _ ih => exact ih
  | and _ _ _ _ ih1 ih2 => exact ⟨ih1, ih2⟩
  | orAnd _ ih => exact ih
  | or _ _ _ _ ih1 ih2 => exact ⟨ih1, ih2⟩

theorem literal_noSubdoc : ∀ {n : Node}, Literal E n → NoSubdoc n
  | .and _ _, h => ⟨literal_noSubdoc h.1, literal_noSubdoc h.2⟩
  | .or _ _, h => ⟨literal_noSubdoc h.1, literal_noSubdoc h.2⟩
  | .not e, h => literal_noSubdoc (n := e) h
  | .subdoc _ _, h => h.elim
  | .expr .., _ => trivial

theorem joinDots_inj : ∀ {f g : List Str}, f ≠ [] → g ≠ [] → (∀ x ∈ f, '.' ∉ x) → (∀ x ∈ g, '.' ∉ x) →
    joinDots f = joinDots g → f = g
  | [], _, h, _, _, _, _ => absurd rfl h
  | _ :: _, [], _, h, _, _, _ => absurd rfl h
  | [x], [y], _, _, _, _, h => by
    have : x = y := h
    rw [this]
  | [x], y :: y' :: ys, _, _, hx, _, h => by
    have h : x = y ++ '.' :: joinDots (y' :: ys) := h
    exact absurd (by rw [h]; simp) (hx x (by simp))
  | x :: x' :: xs, [y], _, _, _, hy, h => by
    have h : x ++ '.' :: joinDots (x' :: xs) = y := h
    exact absurd (by rw [← h]; simp) (hy y (by simp))
  | x :: x' :: xs, y :: y' :: ys, _, _, hx, hy, h => by
    have h : x ++ '.' :: joinDots (x' :: xs) = y ++ '.' :: joinDots (y' :: ys) := h
    have e := span_unique (p := (· ≠ '.')) h (fun c hc e => hx x (by simp) (e ▸ hc)) (fun c hc e => hy y (by simp) (e ▸ hc))
      (noHead_cons.2 (by simp)) (noHead_cons.2 (by simp))
    subst e
    have h := List.append_cancel_left h
    injection h with _ h
    rw [joinDots_inj (by simp) (by simp) (fun z hz => hx z (by simp [hz])) (fun z hz => hy z (by simp [hz])) h]

theorem look_twin {m n : Node} (h : LookAlike E m n) (lm : Literal E m) (ln : Literal E n) (cm : Clear m) (cn : Clear n) :
    TwinTree E m n := by
  induction h with
  | and _ _ ih1 ih2 => exact .and (ih1 lm.1 ln.1 cm.1 cn.1) (ih2 lm.2 ln.2 cm.2 cn.2)
  | or _ _ ih1 ih2 => exact .or (ih1 lm.1 ln.1 cm.1 cn.1) (ih2 lm.2 ln.2 cm.2 cn.2)
  | not _ ih => exact .not (ih lm ln cm cn)
  | expr h1 h2 =>
    rw [joinDots_inj cm.1 cn.1 cm.2 cn.2 (by rw [joinDots_inter, joinDots_inter, h1])]
    refine .expr ?_
    simp only [Literal] at lm ln
    clear cm cn h1
    induction h2 with
    | nil => exact .nil
    | cons h _ ih =>
      obtain ⟨_, _, l1⟩ := lm _ List.mem_cons_self
      obtain ⟨_, _, l2⟩ := ln _ List.mem_cons_self
      refine .cons (lit_twin l1 l2 h.1 h.2) ?_
      exact ih (fun v hv => lm v (by simp [hv])) (fun v hv => ln v (by simp [hv]))

/-! ### C99 -/

variable (E)

/-- **C99.** Two trees have the same drawing, apart from the names of nodes and edges, exactly if they look alike. -/
theorem C99_drawing_exact (s t : Str) (m n : Node) (hm : Query E s m) (hn : Query E t n) :
    DrawnAlike (queryGraph E m) (queryGraph E n) ↔ LookAlike E m n := by
  obtain ⟨_, _, _, -, -, tm, -⟩ := hm
  obtain ⟨_, _, _, -, -, tn, -⟩ := hn
  refine ⟨alike_look (literal_noSubdoc (text_literal tm)) (literal_noSubdoc (text_literal tn)), fun h => ?_⟩
  have : queryGraph E m = queryGraph E n := by simp only [queryGraph, lookAlike_visit h]
  rw [this]
  exact drawnAlike_refl _

/-- **C99**, in part. If two queries are drawn alike then they have the same tree and build the same matcher.

Missing: names with dots and paths of nothing but `*` (`C99_drawing_refuted`). -/
theorem C99_drawn_alike_partial (s t : Str) (m n : Node) (hm : Query E s m) (hn : Query E t n) (cm : Clear m)
    (cn : Clear n) (h : DrawnAlike (queryGraph E m) (queryGraph E n)) : SameTree m n ∧ build E m = build E n := by
  have h := (C99_drawing_exact E s t m n hm hn).1 h
  obtain ⟨_, _, _, -, -, tm, -⟩ := hm
  obtain ⟨_, _, _, -, -, tn, -⟩ := hn
  have h := look_twin h (text_literal tm) (text_literal tn) cm cn
  exact ⟨twinTree_same h, twinTree_build h⟩

/-- A path of two names and a name with a dot are drawn alike. -/
theorem C99_drawing_refuted : ∃ m n, Query testEnv "a.b:1".toList m ∧ Query testEnv "\"a.b\":1".toList n ∧
    DrawnAlike (queryGraph testEnv m) (queryGraph testEnv n) ∧ ¬ SameTree m n ∧ build testEnv m ≠ build testEnv n := by
  refine ⟨_, _, query_of_tree testEnv (n := .expr .EQ ["a".toList, "b".toList] [.int 1 "1".toList ⟨1, 5, 4, 1⟩] ⟨1, 1, 0, 5⟩) (by decide +kernel),
    query_of_tree testEnv (n := .expr .EQ ["a.b".toList] [.int 1 "1".toList ⟨1, 7, 6, 1⟩] ⟨1, 1, 0, 7⟩) (by decide +kernel),
    ?_, ?_, by decide +kernel⟩
  · have : queryGraph testEnv (.expr .EQ ["a".toList, "b".toList] [.int 1 "1".toList ⟨1, 5, 4, 1⟩] ⟨1, 1, 0, 5⟩) =
        queryGraph testEnv (.expr .EQ ["a.b".toList] [.int 1 "1".toList ⟨1, 7, 6, 1⟩] ⟨1, 1, 0, 7⟩) := by rfl
    rw [this]
    exact drawnAlike_refl _
  · intro h
    cases h

-- white space and parentheses are not drawn
example : ∃ m n, Query testEnv "NOT a.b:1 AND c:exists".toList m ∧ Query testEnv "( ! a.b : 1 ) AND (c:exists)".toList n ∧
    Clear m ∧ Clear n ∧ DrawnAlike (queryGraph testEnv m) (queryGraph testEnv n) := by
  refine ⟨_, _, query_of_tree testEnv (n := .and (.not (.expr .EQ [['a'], ['b']] [.int 1 ['1'] ⟨1, 9, 8, 1⟩] ⟨1, 5, 4, 5⟩))
      (.expr .EXS [['c']] [] ⟨1, 15, 14, 8⟩)) (by decide +kernel),
    query_of_tree testEnv (n := .and (.not (.expr .EQ [['a'], ['b']] [.int 1 ['1'] ⟨1, 11, 10, 1⟩] ⟨1, 5, 4, 7⟩))
      (.expr .EXS [['c']] [] ⟨1, 20, 19, 8⟩)) (by decide +kernel), ?_, ?_, ?_⟩
  · simp [Clear]
  · simp [Clear]
  · exact ⟨id, fun _ _ _ _ h => h, .of_eq (by decide +kernel), .of_eq (by decide +kernel)⟩

-- the operands of a conjunction are told apart by the heavy edge
example : ∃ m n, Query testEnv "a:1 AND b:2".toList m ∧ Query testEnv "b:2 AND a:1".toList n ∧
    ¬ DrawnAlike (queryGraph testEnv m) (queryGraph testEnv n) := by
  have h1 := query_of_tree testEnv (s := "a:1 AND b:2".toList) (n := .and (.expr .EQ [['a']] [.int 1 ['1'] ⟨1, 3, 2, 1⟩] ⟨1, 1, 0, 3⟩)
      (.expr .EQ [['b']] [.int 2 ['2'] ⟨1, 11, 10, 1⟩] ⟨1, 9, 8, 3⟩)) (by decide +kernel)
  have h2 := query_of_tree testEnv (s := "b:2 AND a:1".toList) (n := .and (.expr .EQ [['b']] [.int 2 ['2'] ⟨1, 3, 2, 1⟩] ⟨1, 1, 0, 3⟩)
      (.expr .EQ [['a']] [.int 1 ['1'] ⟨1, 11, 10, 1⟩] ⟨1, 9, 8, 3⟩)) (by decide +kernel)
  refine ⟨_, _, h1, h2, ?_⟩
  rw [C99_drawing_exact testEnv _ _ _ _ h1 h2]
  intro h
  cases h with
  | and h _ =>
    cases h with
    | expr h _ => revert h; decide

end Aql
