import Verif.Model.Graph
import Verif.Spec.Complaint
import Verif.Proofs.Digits
import Mathlib.Data.List.Nodup
/-!
Property C54: the query graph.
-/

namespace Aql

namespace Spec

/-- Addresses of the nodes of a query tree, the root first: false is the left (or only) child, true
the right child. -/
def addresses : Node → List (List Bool)
  | .and l r | .or l r => [] :: ((addresses l).map (false :: ·) ++ (addresses r).map (true :: ·))
  | .not e | .subdoc _ e => [] :: (addresses e).map (false :: ·)
  | .expr .. => [[]]

/-- The node at an address. -/
def nodeAt : Node → List Bool → Option Node
  | n, [] => some n
  | .and l _, false :: a | .or l _, false :: a => nodeAt l a
  | .and _ r, true :: a | .or _ r, true :: a => nodeAt r a
  | .not e, false :: a | .subdoc _ e, false :: a => nodeAt e a
  | _, _ => none

/-- Nodes of the same kind: conjunctions, disjunctions, negations, or comparisons. -/
inductive SameKind : Node → Node → Prop
  | and {l r l' r'} : SameKind (.and l r) (.and l' r')
  | or {l r l' r'} : SameKind (.or l r) (.or l' r')
  | not {e e'} : SameKind (.not e) (.not e')
  | expr {op f vs p op' f' vs' p'} : SameKind (.expr op f vs p) (.expr op' f' vs' p')

/-- An address of a left (or only) child. -/
def isLeft (a : List Bool) : Bool := a.getLast? = some false

end Spec

open Spec

variable (E : Env)

/-- What a node of the query tree should show; `tn` gives the text for each type of value. -/
def Spec.Shows (tn : ValType → Str) (n : Node) (l : Label) : Prop :=
  match n with
  | .and _ _ => l = .text "AND".toList
  | .or _ _ => l = .text "OR".toList
  | .not _ => l = .text "NOT".toList
  | .expr op f vs _ =>
      l = .table (List.intercalate ['.'] f) (opSign op) (vs.map fun v => (tn (typeOf v), v.toStr E))
  | .subdoc _ _ => True

theorem joinDots_inter : ∀ f, joinDots f = List.intercalate ['.'] f
  | [] => by simp [joinDots]
  | [p] => by simp [joinDots]
  | p :: q :: ps => by
    rw [joinDots, joinDots_inter (q :: ps), List.intercalate_cons_cons]
    · simp
    · simp

theorem opSign_text (op : Op) : opSign op = op.text := by cases op <;> rfl

theorem nodeLabel_shows (n : Node) : Shows E graphType n (nodeLabel E n) := by
  cases n <;> simp [Shows, nodeLabel, joinDots_inter, opSign_text]

/-- All names in the graph are below the counter, or `start`. -/
structure GState.Wf (g : GState) : Prop where
  nodes : ∀ n ∈ g.nodes, n.name = "start".toList ∨ ∃ i < g.next, n.name = itoa i
  edges : ∀ e ∈ g.edges, ∃ i < g.next, e.name = itoa i

theorem itoa_inj {m n : Nat} (h : itoa m = itoa n) : m = n := numeral_inj h

theorem itoa_ne_start (n : Nat) : itoa n ≠ "start".toList := by
  intro h
  have := numeral_digits n 's' (by
    change 's' ∈ itoa n
    rw [h]; decide)
  revert this; decide

variable {E}

theorem GState.newNode_eq {g : GState} (hg : g.Wf) (l : Face) :
    g.newNode l = (itoa g.next, ⟨g.next + 1, g.nodes ++ [⟨itoa g.next, l⟩], g.edges⟩) := by
  unfold newNode nextName createNode
  dsimp only
  rw [if_neg]
  intro h
  rw [List.any_eq_true] at h
  obtain ⟨n, hn, he⟩ := h
  have he := eq_of_beq he
  rcases hg.nodes n hn with h | ⟨i, hi, h⟩
  · exact itoa_ne_start _ (he.symm.trans h)
  · have := itoa_inj (he.symm.trans h)
    omega

theorem GState.newEdge_eq {g : GState} (hg : g.Wf) (t h : Str) (w : Bool) :
    g.newEdge t h w = ⟨g.next + 1, g.nodes, g.edges ++ [⟨itoa g.next, t, h, w⟩]⟩ := by
  unfold newEdge nextName createEdge
  dsimp only
  rw [if_neg]
  intro hc
  rw [List.any_eq_true] at hc
  obtain ⟨e, hm, hc⟩ := hc
  simp only [Bool.and_eq_true, beq_iff_eq] at hc
  obtain ⟨i, hi, he⟩ := hg.edges _ hm
  have := itoa_inj (hc.1.1.symm.trans he)
  omega

theorem GState.Wf.addNode {g : GState} (hg : g.Wf) (l : Face) :
    GState.Wf ⟨g.next + 1, g.nodes ++ [⟨itoa g.next, l⟩], g.edges⟩ := by
  refine ⟨fun n hn => ?_, fun e he => ?_⟩
  · rcases List.mem_append.1 hn with h | h
    · rcases hg.nodes n h with h | ⟨i, hi, h⟩
      · exact .inl h
      · exact .inr ⟨i, Nat.lt_succ_of_lt hi, h⟩
    · rw [List.mem_singleton.1 h]
      exact .inr ⟨g.next, Nat.lt_succ_self _, rfl⟩
  · obtain ⟨i, hi, h⟩ := hg.edges e he
    exact ⟨i, Nat.lt_succ_of_lt hi, h⟩

theorem GState.Wf.addEdge {g : GState} (hg : g.Wf) (t h : Str) (w : Bool) :
    GState.Wf ⟨g.next + 1, g.nodes, g.edges ++ [⟨itoa g.next, t, h, w⟩]⟩ := by
  refine ⟨fun n hn => ?_, fun e he => ?_⟩
  · rcases hg.nodes n hn with h | ⟨i, hi, h⟩
    · exact .inl h
    · exact .inr ⟨i, Nat.lt_succ_of_lt hi, h⟩
  · rcases List.mem_append.1 he with h | h
    · obtain ⟨i, hi, h⟩ := hg.edges e h
      exact ⟨i, Nat.lt_succ_of_lt hi, h⟩
    · rw [List.mem_singleton.1 h]
      exact ⟨g.next, Nat.lt_succ_self _, rfl⟩

theorem isLeft_cons {b : Bool} {a : List Bool} (h : a ≠ []) : isLeft (b :: a) = isLeft a := by
  cases a with
  | nil => exact absurd rfl h
  | cons x xs => rfl

/-- The effect of drawing a subtree: `name` numbers its nodes, `ens` its edges. -/
structure Drawn (E : Env) (g g' : GState) (root : Node) (name : List Bool → Nat)
    (es : List (Nat × List Bool)) : Prop where
  wf : g'.Wf
  mono : g.next < g'.next
  nodes : g'.nodes = g.nodes ++ (addresses root).map fun a =>
    ⟨itoa (name a), ((nodeAt root a).map (nodeFace E)).getD ⟨.blank, [], []⟩⟩
  edges : g'.edges = g.edges ++ es.map fun e => ⟨itoa e.1, itoa (name e.2.dropLast), itoa (name e.2), isLeft e.2⟩
  targets : (es.map Prod.snd).Perm (addresses root).tail
  range : ∀ a ∈ addresses root, g.next ≤ name a ∧ name a < g'.next
  inj : ∀ a ∈ addresses root, ∀ b ∈ addresses root, name a = name b → a = b
  erange : ∀ e ∈ es, g.next ≤ e.1 ∧ e.1 < g'.next
  edistinct : (es.map Prod.fst).Nodup

theorem addresses_head (n : Node) : ∃ t, addresses n = [] :: t := by cases n <;> exact ⟨_, rfl⟩

theorem addresses_tail_ne {n : Node} {a : List Bool} (h : a ∈ (addresses n).tail) : a ≠ [] := by
  intro e; subst e
  cases n <;> simp [addresses] at h

theorem dropLast_cons {b : Bool} {a : List Bool} (h : a ≠ []) : (b :: a).dropLast = b :: a.dropLast := by
  cases a with
  | nil => exact absurd rfl h
  | cons x xs => rfl

section
variable {g g1 g2 : GState} {l r : Node} {nl nr : List Bool → Nat} {el er : List (Nat × List Bool)}

/-- The numbering of a tree from those of its subtrees. -/
def joinNames (k : Nat) (nl nr : List Bool → Nat) : List Bool → Nat
  | [] => k
  | false :: a => nl a
  | true :: a => nr a

theorem es_ne (h : (el.map Prod.snd).Perm (addresses l).tail) {e : Nat × List Bool} (he : e ∈ el) :
    e.2 ≠ [] :=
  addresses_tail_ne (h.subset (List.mem_map_of_mem (f := Prod.snd) he))

/-- Drawing a node with two subtrees. -/
theorem drawn_two (root : Node) (ha : addresses root =
      [] :: ((addresses l).map (false :: ·) ++ (addresses r).map (true :: ·)))
    (hl : ∀ a, nodeAt root (false :: a) = nodeAt l a) (hr : ∀ a, nodeAt root (true :: a) = nodeAt r a)
    (h0 : nodeAt root [] = some root)
    (d1 : Drawn E ⟨g.next + 1, g.nodes ++ [⟨itoa g.next, nodeFace E root⟩], g.edges⟩ g1 l nl el)
    (d2 : Drawn E ⟨g1.next + 1, g1.nodes, g1.edges ++ [⟨itoa g1.next, itoa g.next, itoa (nl []), true⟩]⟩
      g2 r nr er) :
    Drawn E g ⟨g2.next + 1, g2.nodes, g2.edges ++ [⟨itoa g2.next, itoa g.next, itoa (nr []), false⟩]⟩ root
      (joinNames g.next nl nr)
      (el.map (fun e => (e.1, false :: e.2)) ++ [(g1.next, [false])] ++
        er.map (fun e => (e.1, true :: e.2)) ++ [(g2.next, [true])]) := by
  have m1 := d1.mono
  have m2 := d2.mono
  dsimp only at m1 m2
  refine ⟨d2.wf.addEdge _ _ _, by dsimp only; omega, ?_, ?_, ?_, ?_, ?_, ?_, ?_⟩
  · dsimp only
    rw [d2.nodes]; dsimp only
    rw [d1.nodes]; dsimp only
    rw [ha]
    simp only [List.map_cons, List.map_append, List.map_map, List.append_assoc, h0]
    simp only [Function.comp_def, hl, hr, joinNames, List.singleton_append, Option.map_some,
      Option.getD_some]
  · dsimp only
    rw [d2.edges]; dsimp only
    rw [d1.edges]; dsimp only
    simp only [List.map_append, List.map_map, List.append_assoc, Function.comp_def, List.map_cons,
      List.map_nil]
    have q1 : el.map (fun e => (⟨itoa e.1, itoa (nl e.2.dropLast), itoa (nl e.2), isLeft e.2⟩ : GEdge)) =
        el.map (fun e => ⟨itoa e.1, itoa (joinNames g.next nl nr (false :: e.2).dropLast),
          itoa (joinNames g.next nl nr (false :: e.2)), isLeft (false :: e.2)⟩) := by
      refine List.map_congr_left fun e he => ?_
      rw [dropLast_cons (es_ne d1.targets he), isLeft_cons (es_ne d1.targets he)]
      rfl
    have q2 : er.map (fun e => (⟨itoa e.1, itoa (nr e.2.dropLast), itoa (nr e.2), isLeft e.2⟩ : GEdge)) =
        er.map (fun e => ⟨itoa e.1, itoa (joinNames g.next nl nr (true :: e.2).dropLast),
          itoa (joinNames g.next nl nr (true :: e.2)), isLeft (true :: e.2)⟩) := by
      refine List.map_congr_left fun e he => ?_
      rw [dropLast_cons (es_ne d2.targets he), isLeft_cons (es_ne d2.targets he)]
      rfl
    rw [q1, q2]
    rfl
  · rw [ha]
    obtain ⟨tl, htl⟩ := addresses_head l
    obtain ⟨tr, htr⟩ := addresses_head r
    have p1 := d1.targets
    have p2 := d2.targets
    rw [htl, List.tail_cons] at p1
    rw [htr, List.tail_cons] at p2
    rw [htl, htr]
    simp only [List.map_append, List.map_map, List.map_cons, List.map_nil, List.tail_cons,
      Function.comp_def]
    have e1 : el.map (fun e => false :: e.2) = (el.map Prod.snd).map (false :: ·) := by
      rw [List.map_map]; rfl
    have e2 : er.map (fun e => true :: e.2) = (er.map Prod.snd).map (true :: ·) := by
      rw [List.map_map]; rfl
    rw [e1, e2]
    have p1' := p1.map (false :: ·)
    have p2' := p2.map (true :: ·)
    refine ((p1'.append_right _).append_right _ |>.append_right _).trans ?_
    refine (((p2'.append_left _)).append_right _).trans ?_
    rw [List.append_assoc]
    exact (List.perm_append_singleton _ _).append (List.perm_append_singleton _ _)
  · intro a h
    rw [ha] at h
    simp only [List.mem_cons, List.mem_append, List.mem_map] at h
    rcases h with rfl | ⟨b, hb, rfl⟩ | ⟨b, hb, rfl⟩
    · simp only [joinNames]; omega
    · have := d1.range b hb
      simp only [joinNames]; dsimp only at this; omega
    · have := d2.range b hb
      simp only [joinNames]; dsimp only at this; omega
  · intro a h b h'
    rw [ha] at h h'
    simp only [List.mem_cons, List.mem_append, List.mem_map] at h h'
    rcases h with rfl | ⟨c, hc, rfl⟩ | ⟨c, hc, rfl⟩ <;> rcases h' with rfl | ⟨d, hd, rfl⟩ | ⟨d, hd, rfl⟩
    · intro _; rfl
    · have := d1.range d hd
      dsimp only [joinNames] at this ⊢; intro; omega
    · have := d2.range d hd
      dsimp only [joinNames] at this ⊢; intro; omega
    · have := d1.range c hc
      dsimp only [joinNames] at this ⊢; intro; omega
    · intro e
      rw [d1.inj c hc d hd e]
    · have h1 := d1.range c hc
      have h2 := d2.range d hd
      dsimp only [joinNames] at h1 h2 ⊢; intro; omega
    · have := d2.range c hc
      dsimp only [joinNames] at this ⊢; intro; omega
    · have h1 := d2.range c hc
      have h2 := d1.range d hd
      dsimp only [joinNames] at h1 h2 ⊢; intro; omega
    · intro e
      rw [d2.inj c hc d hd e]
  · intro e he
    simp only [List.mem_append, List.mem_map, List.mem_singleton] at he
    rcases he with ((⟨d, hd, rfl⟩ | rfl) | ⟨d, hd, rfl⟩) | rfl
    · have := d1.erange d hd
      dsimp only at this ⊢; omega
    · dsimp only; omega
    · have := d2.erange d hd
      dsimp only at this ⊢; omega
    · dsimp only; omega
  · simp only [List.map_append, List.map_map, Function.comp_def, List.map_cons, List.map_nil]
    have k1 : ∀ x ∈ el.map (fun e => e.1), g.next ≤ x ∧ x < g1.next := by
      intro x hx
      obtain ⟨e, he, rfl⟩ := List.mem_map.1 hx
      have := d1.erange e he
      dsimp only at this; omega
    have k2 : ∀ x ∈ er.map (fun e => e.1), g1.next + 1 ≤ x ∧ x < g2.next := by
      intro x hx
      obtain ⟨e, he, rfl⟩ := List.mem_map.1 hx
      have := d2.erange e he
      dsimp only at this; omega
    rw [List.nodup_append, List.nodup_append, List.nodup_append]
    refine ⟨⟨⟨d1.edistinct, by simp, ?_⟩, d2.edistinct, ?_⟩, by simp, ?_⟩
    · intro x hx y hy
      rw [List.mem_singleton.1 hy]
      have := k1 x hx; omega
    · intro x hx y hy
      have := k2 y hy
      rcases List.mem_append.1 hx with h | h
      · have := k1 x h; omega
      · rw [List.mem_singleton.1 h]; omega
    · intro x hx y hy
      rw [List.mem_singleton.1 hy]
      rcases List.mem_append.1 hx with h | h
      · rcases List.mem_append.1 h with h | h
        · have := k1 x h; omega
        · rw [List.mem_singleton.1 h]; omega
      · have := k2 x h; omega

/-- Drawing a node with one subtree. -/
theorem drawn_one (root : Node) (ha : addresses root = [] :: (addresses l).map (false :: ·))
    (hl : ∀ a, nodeAt root (false :: a) = nodeAt l a)
    (h0 : nodeAt root [] = some root)
    (d1 : Drawn E ⟨g.next + 1, g.nodes ++ [⟨itoa g.next, nodeFace E root⟩], g.edges⟩ g1 l nl el) :
    Drawn E g ⟨g1.next + 1, g1.nodes, g1.edges ++ [⟨itoa g1.next, itoa g.next, itoa (nl []), true⟩]⟩ root
      (joinNames g.next nl nl)
      (el.map (fun e => (e.1, false :: e.2)) ++ [(g1.next, [false])]) := by
  have m1 := d1.mono
  dsimp only at m1
  refine ⟨d1.wf.addEdge _ _ _, by dsimp only; omega, ?_, ?_, ?_, ?_, ?_, ?_, ?_⟩
  · dsimp only
    rw [d1.nodes]; dsimp only
    rw [ha]
    simp only [List.map_cons, List.map_map, List.append_assoc, h0]
    simp only [Function.comp_def, hl, joinNames, List.singleton_append, Option.map_some,
      Option.getD_some]
  · dsimp only
    rw [d1.edges]; dsimp only
    simp only [List.map_append, List.map_map, List.append_assoc, Function.comp_def, List.map_cons,
      List.map_nil]
    have q1 : el.map (fun e => (⟨itoa e.1, itoa (nl e.2.dropLast), itoa (nl e.2), isLeft e.2⟩ : GEdge)) =
        el.map (fun e => ⟨itoa e.1, itoa (joinNames g.next nl nl (false :: e.2).dropLast),
          itoa (joinNames g.next nl nl (false :: e.2)), isLeft (false :: e.2)⟩) := by
      refine List.map_congr_left fun e he => ?_
      rw [dropLast_cons (es_ne d1.targets he), isLeft_cons (es_ne d1.targets he)]
      rfl
    rw [q1]
    rfl
  · rw [ha]
    obtain ⟨tl, htl⟩ := addresses_head l
    have p1 := d1.targets
    rw [htl, List.tail_cons] at p1
    rw [htl]
    simp only [List.map_append, List.map_map, List.map_cons, List.map_nil, List.tail_cons,
      Function.comp_def]
    have e1 : el.map (fun e => false :: e.2) = (el.map Prod.snd).map (false :: ·) := by
      rw [List.map_map]; rfl
    rw [e1]
    exact ((p1.map (false :: ·)).append_right _).trans (List.perm_append_singleton _ _)
  · intro a h
    rw [ha] at h
    simp only [List.mem_cons, List.mem_map] at h
    rcases h with rfl | ⟨b, hb, rfl⟩
    · simp only [joinNames]; omega
    · have := d1.range b hb
      simp only [joinNames]; dsimp only at this; omega
  · intro a h b h'
    rw [ha] at h h'
    simp only [List.mem_cons, List.mem_map] at h h'
    rcases h with rfl | ⟨c, hc, rfl⟩ <;> rcases h' with rfl | ⟨d, hd, rfl⟩
    · intro _; rfl
    · have := d1.range d hd
      dsimp only [joinNames] at this ⊢; intro; omega
    · have := d1.range c hc
      dsimp only [joinNames] at this ⊢; intro; omega
    · intro e
      rw [d1.inj c hc d hd e]
  · intro e he
    simp only [List.mem_append, List.mem_map, List.mem_singleton] at he
    rcases he with ⟨d, hd, rfl⟩ | rfl
    · have := d1.erange d hd
      dsimp only at this ⊢; omega
    · dsimp only; omega
  · simp only [List.map_append, List.map_map, Function.comp_def, List.map_cons, List.map_nil]
    rw [List.nodup_append]
    refine ⟨d1.edistinct, by simp, ?_⟩
    intro x hx y hy
    rw [List.mem_singleton.1 hy]
    obtain ⟨e, he, rfl⟩ := List.mem_map.1 hx
    have := d1.erange e he
    dsimp only at this; omega

end

theorem visit_drawn (root : Node) (hr : NoSubdoc root) (g : GState) (hg : g.Wf) :
    ∃ g' name es, visitNodes E g root = (itoa g.next, g') ∧ name [] = g.next ∧
      Drawn E g g' root name es := by
  induction root generalizing g with
  | expr op f vs p =>
    refine ⟨_, fun _ => g.next, [], g.newNode_eq hg _, rfl, hg.addNode _, by dsimp only; omega, ?_, ?_, ?_, ?_, ?_, ?_, ?_⟩
    · simp [addresses, nodeAt]
    · simp
    · simp [addresses]
    · intro a _; dsimp only; omega
    · intro a ha b hb _
      simp only [addresses, List.mem_singleton] at ha hb
      rw [ha, hb]
    · simp
    · simp
  | subdoc f e => exact absurd hr (by simp [NoSubdoc])
  | not e ih =>
    obtain ⟨g1, nl, el, v1, s1, d1⟩ := ih hr _ (hg.addNode (nodeFace E (.not e)))
    refine ⟨_, _, _, ?_, rfl, drawn_one (.not e) rfl (fun _ => rfl) rfl d1⟩
    simp only [visitNodes, g.newNode_eq hg, v1, GState.newEdge_eq d1.wf, s1]
  | and a b iha ihb =>
    obtain ⟨g1, nl, el, v1, s1, d1⟩ := iha hr.1 _ (hg.addNode (nodeFace E (.and a b)))
    obtain ⟨g2, nr, er, v2, s2, d2⟩ := ihb hr.2 _ (d1.wf.addEdge (itoa g.next) (itoa (nl [])) true)
    refine ⟨_, _, _, ?_, rfl, drawn_two (.and a b) rfl (fun _ => rfl) (fun _ => rfl) rfl d1 d2⟩
    simp only [s1] at v2
    simp only [visitNodes, g.newNode_eq hg, v1, GState.newEdge_eq d1.wf, v2, GState.newEdge_eq d2.wf, s2]
  | or a b iha ihb =>
    obtain ⟨g1, nl, el, v1, s1, d1⟩ := iha hr.1 _ (hg.addNode (nodeFace E (.or a b)))
    obtain ⟨g2, nr, er, v2, s2, d2⟩ := ihb hr.2 _ (d1.wf.addEdge (itoa g.next) (itoa (nl [])) true)
    refine ⟨_, _, _, ?_, rfl, drawn_two (.or a b) rfl (fun _ => rfl) (fun _ => rfl) rfl d1 d2⟩
    simp only [s1] at v2
    simp only [visitNodes, g.newNode_eq hg, v1, GState.newEdge_eq d1.wf, v2, GState.newEdge_eq d2.wf, s2]

theorem nodeAt_noSubdoc : ∀ {n m : Node} {a : List Bool}, NoSubdoc n → nodeAt n a = some m → NoSubdoc m
  | n, m, [], h, e => by
    have : n = m := by cases n <;> exact Option.some.inj e
    exact this ▸ h
  | .and l _, _, false :: _, h, e => nodeAt_noSubdoc (n := l) h.1 e
  | .or l _, _, false :: _, h, e => nodeAt_noSubdoc (n := l) h.1 e
  | .and _ r, _, true :: _, h, e => nodeAt_noSubdoc (n := r) h.2 e
  | .or _ r, _, true :: _, h, e => nodeAt_noSubdoc (n := r) h.2 e
  | .not x, _, false :: _, h, e => nodeAt_noSubdoc (n := x) h e
  | .subdoc .., _, false :: _, h, _ => by simp [NoSubdoc] at h
  | .not _, _, true :: _, _, e => by cases e
  | .subdoc .., _, true :: _, _, e => by cases e
  | .expr .., _, x :: _, _, e => by cases x <;> cases e

/-- The drawing of a node at an address. -/
def faceAt (E : Env) (root : Node) (a : List Bool) : Face := ((nodeAt root a).map (nodeFace E)).getD ⟨.blank, [], []⟩

/-- The parts of the graph, with their drawings. -/
theorem graph_parts (root : Node) (hr : NoSubdoc root) :
    ∃ (name : List Bool → Str),
      (queryGraph E root).nodes = ⟨"start".toList, ⟨.point, "point".toList, []⟩⟩ ::
        (addresses root).map (fun a => ⟨name a, faceAt E root a⟩) ∧
      (∀ a ∈ addresses root, ∀ b ∈ addresses root, name a = name b → a = b) ∧
      (∀ a ∈ addresses root, name a ≠ "start".toList) ∧
      ((queryGraph E root).edges.map fun e => (e.tail, e.head, e.heavy)).Perm
        (("start".toList, name [], true) ::
          (addresses root).tail.map fun a => (name a.dropLast, name a, isLeft a)) ∧
      ((queryGraph E root).edges.map GEdge.name).Nodup := by
  have hs : (⟨0, [], []⟩ : GState).createNode "start".toList ⟨.point, "point".toList, []⟩ =
      ⟨0, [⟨"start".toList, ⟨.point, "point".toList, []⟩⟩], []⟩ := rfl
  have hwf : GState.Wf ⟨0, [⟨"start".toList, ⟨.point, "point".toList, []⟩⟩], []⟩ :=
    ⟨fun n hn => .inl (by rw [List.mem_singleton.1 hn]), by simp⟩
  obtain ⟨g', name, es, hv, hn, d⟩ := visit_drawn (E := E) root hr _ hwf
  have hq : queryGraph E root =
      ⟨g'.next + 1, g'.nodes, g'.edges ++ [⟨itoa g'.next, "start".toList, itoa 0, true⟩]⟩ := by
    unfold queryGraph
    dsimp only
    rw [hs]
    simp only [hv, GState.newEdge_eq d.wf]
  have hnodes := d.nodes
  have hedges := d.edges
  dsimp only at hnodes hedges hn
  rw [List.nil_append] at hedges
  refine ⟨fun a => itoa (name a), ?_, ?_, ?_, ?_, ?_⟩
  · rw [hq]
    dsimp only
    rw [hnodes]
    rfl
  · intro a ha b hb h
    exact d.inj a ha b hb (itoa_inj h)
  · intro a _
    exact itoa_ne_start _
  · rw [hq]
    dsimp only
    rw [hedges, List.map_append, List.map_map, hn]
    refine (List.perm_append_singleton _ _).trans ?_
    refine List.Perm.cons _ ?_
    have := d.targets.map fun a => (itoa (name a.dropLast), itoa (name a), isLeft a)
    rw [List.map_map] at this
    exact this
  · rw [hq]
    dsimp only
    rw [hedges, List.map_append, List.map_map]
    rw [List.nodup_append]
    refine ⟨?_, by simp, ?_⟩
    · have := List.Nodup.map (f := itoa) (fun _ _ h => itoa_inj h) d.edistinct
      rw [List.map_map] at this
      exact this
    · intro x hx y hy
      simp only [List.map_cons, List.map_nil, List.mem_singleton] at hy
      obtain ⟨e, he, rfl⟩ := List.mem_map.1 hx
      intro h
      have := d.erange e he
      have := itoa_inj (h.trans hy)
      omega

/-- **C54.** The graph of a query: besides the start point, exactly one node for each node of the
query tree, in preorder, showing what the tree node is, in a colour that tells conjunctions, disjunctions, negations and comparisons apart;
exactly one edge into each of them, from the
node of its parent (from the start point for the root), drawn heavy if it leads to the root, to a left operand or to
the operand of NOT; names of nodes are pairwise distinct, as are
names of edges. The text for the type of a value tells the types apart. -/
theorem C54_mirror (root : Node) (hr : NoSubdoc root) :
    ∃ (tn : ValType → Str) (name : List Bool → Str) (face : List Bool → Face),
      (∀ s t, tn s = tn t → s = t) ∧
      (queryGraph E root).nodes = ⟨"start".toList, ⟨.point, "point".toList, []⟩⟩ ::
        (addresses root).map (fun a => ⟨name a, face a⟩) ∧
      (∀ a ∈ addresses root, ∀ b ∈ addresses root, name a = name b → a = b) ∧
      (∀ a ∈ addresses root, name a ≠ "start".toList) ∧
      (∀ a n, nodeAt root a = some n → Shows E tn n (face a).label) ∧
      (∀ a b n n', nodeAt root a = some n → nodeAt root b = some n' → ((face a).fill = (face b).fill ↔ SameKind n n')) ∧
      ((queryGraph E root).edges.map fun e => (e.tail, e.head, e.heavy)).Perm
        (("start".toList, name [], true) ::
          (addresses root).tail.map fun a => (name a.dropLast, name a, isLeft a)) ∧
      ((queryGraph E root).edges.map GEdge.name).Nodup := by
  obtain ⟨name, h1, h2, h3, h4, h5⟩ := graph_parts (E := E) root hr
  refine ⟨graphType, name, faceAt E root, fun s t => by cases s <;> cases t <;> decide, h1, h2, h3, fun a n h => ?_,
    fun a b n n' h h' => ?_, h4, h5⟩
  · unfold faceAt
    have : (nodeFace E n).label = nodeLabel E n := by cases n <;> rfl
    rw [h, Option.map_some, Option.getD_some, this]
    exact nodeLabel_shows E n
  · unfold faceAt
    rw [h, h', Option.map_some, Option.getD_some, Option.map_some, Option.getD_some]
    have k := nodeAt_noSubdoc hr h
    have k' := nodeAt_noSubdoc hr h'
    constructor
    · intro e
      cases n <;> cases n' <;>
        first | constructor | exact k.elim | exact k'.elim | (exfalso; simp [nodeFace] at e)
    · intro e
      cases e <;> rfl

/-- The addresses are exactly those of the nodes of the query tree, without repetition. -/
theorem C54_addresses (root : Node) :
    (addresses root).Nodup ∧ ∀ a, a ∈ addresses root ↔ (nodeAt root a).isSome := by
  have inj : ∀ b : Bool, Function.Injective (b :: · : List Bool → List Bool) :=
    fun b x y h => (List.cons.inj h).2
  induction root with
  | expr => exact ⟨by simp [addresses], fun a => by cases a <;> simp [addresses, nodeAt]⟩
  | not e ih =>
    refine ⟨?_, fun a => ?_⟩
    · simp only [addresses, List.nodup_cons]
      exact ⟨by simp, List.Nodup.map (inj _) ih.1⟩
    · rcases a with _ | ⟨_ | _, a⟩ <;> simp [addresses, nodeAt, ih.2]
  | subdoc f e ih =>
    refine ⟨?_, fun a => ?_⟩
    · simp only [addresses, List.nodup_cons]
      exact ⟨by simp, List.Nodup.map (inj _) ih.1⟩
    · rcases a with _ | ⟨_ | _, a⟩ <;> simp [addresses, nodeAt, ih.2]
  | and l r ih1 ih2 =>
    refine ⟨?_, fun a => ?_⟩
    · simp only [addresses, List.nodup_cons, List.nodup_append]
      exact ⟨by simp, List.Nodup.map (inj _) ih1.1, List.Nodup.map (inj _) ih2.1, by simp⟩
    · rcases a with _ | ⟨_ | _, a⟩ <;> simp [addresses, nodeAt, ih1.2, ih2.2]
  | or l r ih1 ih2 =>
    refine ⟨?_, fun a => ?_⟩
    · simp only [addresses, List.nodup_cons, List.nodup_append]
      exact ⟨by simp, List.Nodup.map (inj _) ih1.1, List.Nodup.map (inj _) ih2.1, by simp⟩
    · rcases a with _ | ⟨_ | _, a⟩ <;> simp [addresses, nodeAt, ih1.2, ih2.2]

example : ((queryGraph testEnv (.and (.not (.expr .EXS ["a".toList] [] noPosition))
    (.expr .NUL ["b".toList] [] noPosition))).edges.map fun e => (String.ofList e.tail, String.ofList e.head))
    = [("1", "2"), ("0", "1"), ("0", "5"), ("start", "0")] := by decide +kernel

end Aql
