import Verif.Proofs.MemoLex
/-!
The run with `Memoize` and clauses, one expression at a time: what two runs have in common, with what is known about
the entries for clauses.
-/

namespace Aql

variable {E : Env} {I : List Sym} {o : Opts}

/-- Where a successful evaluation ended. -/
def Res.endAt : Res → Option Cursor
  | .ok _ c _ => some c
  | _ => none

/-- Only these entries of clauses may differ. -/
def Chg (W : Nat → MKey → Prop) (s s' : PState) : Prop :=
  ∀ off k, tracked k = true → ¬ W off k → s'.memo.lookup (off, k) = s.memo.lookup (off, k)

section
variable {W W' : Nat → MKey → Prop} {s s1 s2 : PState}

theorem Chg.trans (h : Chg W s s1) (h' : Chg W s1 s2) : Chg W s s2 :=
  fun off k hk hw => (h' off k hk hw).trans (h off k hk hw)

theorem Chg.mono (h : Chg W s s1) (hw : ∀ off k, W off k → W' off k) : Chg W' s s1 :=
  fun off k hk h' => h off k hk fun hh => h' (hw _ _ hh)

theorem Untr.chg (h : Untr s s1) : Chg W s s1 := fun off k hk _ => h off k hk

theorem Chg.set (h : Chg W s s1) {c : Cursor} {k : MKey} (m : MRes) (hw : W c.loc.off k) :
    Chg W s (setMemoized c k m s1) := by
  intro off k' hk hw'
  rw [lookup_set, if_neg]
  · exact h off k' hk hw'
  · intro hh
    cases hh
    exact hw' hw

theorem chg_refl : Chg W s s := fun _ _ _ _ => rfl

theorem untr_refl : Untr s s := fun _ _ _ => rfl

end

/-- No entries of clauses from here on. -/
def Fr (s : PState) (p : Nat) : Prop := ∀ off k, tracked k = true → p ≤ off → s.memo.lookup (off, k) = none

theorem Fr.mono {s : PState} {p q : Nat} (h : Fr s p) (hq : p ≤ q) : Fr s q := fun off k hk ho => h off k hk (hq.trans ho)

theorem Fr.chg {W : Nat → MKey → Prop} {s s' : PState} {p : Nat} (h : Fr s p) (hc : Chg W s s')
    (hw : ∀ off k, W off k → off < p) : Fr s' p := by
  intro off k hk ho
  rw [hc off k hk fun hh => absurd (hw _ _ hh) (by omega)]
  exact h off k hk ho

theorem Fr.untr {s s' : PState} {p : Nat} (h : Fr s p) (hc : Untr s s') : Fr s' p :=
  h.chg (W := fun _ _ => False) hc.chg fun _ _ h => h.elim

/-- The two runs agree, labels included, and what is then known. -/
def SimT (E : Env) (I : List Sym) (T : Option Cursor → PState → Prop) (Lg l : List Ev) (r : Res) (l' : List Ev) (r' : ORes)
    (s' : PState) : Prop :=
  (∃ x, (errorsOf l).head? = some x ∧ (errorsOf l').head? = some x) ∨
  (errorsOf l = [] ∧ errorsOf l' = [] ∧ SubLog l (Lg ++ l') ∧ l'.Sublist l ∧ r' = .ofRes r ∧
    (r.alive → MInv E I s' (Lg ++ l') ∧ T r.endAt s'))

section
variable {T T1 : Option Cursor → PState → Prop} {Lg la lx l l' l1 l2 : List Ev} {ra r : Res} {r1 r' : ORes} {s1 s' : PState}

theorem SimT.mono (h : SimT E I T1 Lg l r l' r' s') (ht : T1 r.endAt s' → T r.endAt s') : SimT E I T Lg l r l' r' s' := by
  rcases h with h | ⟨a1, a2, a3, a4, a5, a6⟩
  · exact .inl h
  · exact .inr ⟨a1, a2, a3, a4, a5, fun h => ⟨(a6 h).1, ht (a6 h).2⟩⟩

theorem SimT.bind (h : SimT E I T1 Lg la ra l1 r1 s1)
    (k : errorsOf la = [] → r1 = .ofRes ra → (ra.alive → MInv E I s1 (Lg ++ l1) ∧ T1 ra.endAt s1) →
      SimT E I T (Lg ++ l1) lx r l2 r' s') : SimT E I T Lg (la ++ lx) r (l1 ++ l2) r' s' := by
  rcases h with ⟨x, h1, h2⟩ | ⟨h1, h2, h3, h4, h5, h6⟩
  · refine .inl ⟨x, ?_, ?_⟩
    · rw [errorsOf_append, List.head?_append, h1]; rfl
    · rw [errorsOf_append, List.head?_append, h2]; rfl
  · rcases k h1 h5 h6 with ⟨x, hx, hx'⟩ | ⟨a1, a2, a3, a4, a5, a6⟩
    · refine .inl ⟨x, ?_, ?_⟩
      · rw [errorsOf_append, h1]; exact hx
      · rw [errorsOf_append, h2]; exact hx'
    · refine .inr ⟨by rw [errorsOf_append, h1, a1]; rfl, by rw [errorsOf_append, h2, a2]; rfl, ?_, ?_, a5, ?_⟩
      · rw [← List.append_assoc]
        exact (h3.trans (subLog_left _ _)).append a3
      · exact h4.append a4
      · rw [← List.append_assoc]; exact a6

theorem SimT.bind0 (h : SimT E I T1 Lg la ra l1 r1 s1)
    (k : errorsOf la = [] → r1 = .ofRes ra → (ra.alive → MInv E I s1 (Lg ++ l1) ∧ T1 ra.endAt s1) →
      SimT E I T (Lg ++ l1) [] r l2 r' s') : SimT E I T Lg la r (l1 ++ l2) r' s' := by
  have := SimT.bind h k
  rwa [List.append_nil] at this

theorem simT_nil (hm : r.alive → MInv E I s1 Lg ∧ T r.endAt s1) : SimT E I T Lg [] r [] (.ofRes r) s1 :=
  .inr ⟨rfl, rfl, subLog_nil _, List.nil_sublist _, rfl, by rw [List.append_nil]; exact hm⟩

theorem SimT.tick (h : SimT E I T Lg l r l' r' s') : SimT E I T Lg (.tick :: l) r (.tick :: l') r' s' := by
  rcases h with ⟨x, hx, hx'⟩ | ⟨a1, a2, a3, a4, a5, a7⟩
  · exact .inl ⟨x, hx, hx'⟩
  · have hs : SubLog (Lg ++ l') (Lg ++ .tick :: l') := (subLog_left _ _).append
      (fun _ _ _ _ h => List.mem_append_right _ (List.mem_cons_of_mem _ h))
    refine .inr ⟨a1, a2, ?_, ?_, a5, fun h => ⟨(a7 h).1.mono hs, (a7 h).2⟩⟩
    · intro b i p w h
      simp only [List.mem_cons, reduceCtorEq, false_or] at h
      exact hs _ _ _ _ (a3 _ _ _ _ h)
    · exact a4.cons_cons _

end

theorem same_ofRes (r : Res) : r.Same (.ofRes r) := by
  cases r <;> first | rfl | exact ⟨rfl, rfl⟩

/-- The contexts of clauses. -/
abbrev octx0 : OCtx := ⟨false, []⟩
abbrev ctx0 : Ctx := ⟨false, []⟩

theorem notLab_parent {n : NodeId} (h : parentAct n = false) : NotLab (.node n) := by
  intro n' a x e hn hk
  cases hk
  unfold nodeAt at hn
  simp [parentAct, NodeId.child, hn] at h

section
variable {T T1 T' : Option Cursor → PState → Prop} {Lg l l' : List Ev} {r : Res} {r' : ORes} {s s' : PState} {c : Cursor}
  {n : NodeId} {e : PExpr} {fr : VFrame} {f : Nat} (ho : o.memoize = true) (hx : o.maxExprs = 0)

include ho hx

/-- An expression that is not in the table. -/
theorem simT_miss (hn : nodeAt n = some e) (hcode : codeAt n = (false, 0)) (hc : OnInput I c)
    (hlk : s.memo.lookup (c.loc.off, .node n) = none) (hnl : NotLab (.node n)) (heof : n.1 ≠ .EOF)
    (hb0 : ∃ r0, Big E ctx0 (.expr e []) c l r0 ∧ (∀ m, r.Is m → r0.Is m) ∧ (lexN e = true → r0.noFr))
    (h : oRun E o f octx0 n e fr c s = .done l' r' s')
    (body : ∀ g cnt l2 r2 s2, f = g + 1 → oStep E o g (oRun E o g) octx0 n e fr c ⟨cnt, s.memo⟩ = .done l2 r2 s2 →
      ∃ l0, l = .tick :: l0 ∧ SimT E I T Lg l0 r l2 r2 s2)
    (hT : ∀ m s1, T r.endAt s1 → T' r.endAt (setMemoized c (.node n) m s1)) : SimT E I T' Lg l r l' r' s' := by
  cases f with
  | zero => cases h
  | succ g =>
    unfold oRun memoized at h
    rw [ho, if_pos rfl, show getMemoized c (.node n) s = none from hlk] at h
    obtain ⟨l1, r1, s1, l2, h1, h2, rfl⟩ := oAndThen_done h
    cases h2
    obtain ⟨l3, cnt, h3, rfl⟩ := oTick_done hx h1
    obtain ⟨l0, rfl, hs⟩ := body g cnt l3 _ _ rfl h3
    rw [List.append_nil]
    rcases hs.tick with herr | ⟨a1, a2, a3, a4, a5, a7⟩
    · exact .inl herr
    · refine .inr ⟨a1, a2, a3, a4, a5, fun ha => ?_⟩
      obtain ⟨m, hm, hst⟩ := same_store (c := c) (k := .node n) (s := s1) ho (r' := .ofRes r) (same_ofRes r) ha
      rw [a5, hst]
      refine ⟨(a7 ha).1.set hc ?_ hnl ?_, hT _ _ (a7 ha).2⟩
      · intro e' he'
        rw [hn] at he'
        cases he'
        obtain ⟨r0, hb0, h0, h0'⟩ := hb0
        refine ⟨_, r0, by rw [hcode]; exact hb0, h0 m hm, a1, a3, h0'⟩
      · intro hk
        simp only [eofKey, beq_iff_eq] at hk
        exact absurd hk heof

omit hx in
/-- A rule that is not in the table. -/
theorem simT_rule {q : Rule} {k : Nat} (hq : ruleCode q = (false, 0)) (hqe : q ≠ .EOF) (hc : OnInput I c)
    (hlk : s.memo.lookup (c.loc.off, .rule q) = none) (hb : Big E ctx0 (.expr (.rule q) fr) c l r)
    (h : oStep E o k (oRun E o f) octx0 n (.rule q) fr c s = .done l' r' s')
    (body : ∀ la ra l1 r1 s1, Big E ctx0 (.expr (grammar q) []) c la ra →
      oRun E o f octx0 (q, []) (grammar q) [] c s = .done l1 r1 s1 → SimT E I T1 Lg la ra l1 r1 s1)
    (hT : ∀ m s1, T1 r.endAt s1 → T r.endAt (setMemoized c (.rule q) m s1)) :
    ∃ l0, l = .tick :: l0 ∧ SimT E I T Lg l0 r l' r' s' := by
  unfold oStep oParseRule memoized at h
  dsimp only at h
  rw [ho, if_pos rfl, show getMemoized c (.rule q) s = none from hlk] at h
  obtain ⟨la, ra, sa, lb, h1, h2, rfl⟩ := oAndThen_done h
  cases h2
  obtain ⟨l3, r3, s3, l4, h3, h4, rfl⟩ := oAndThen_done h1
  rw [List.append_nil]
  have key : ∀ lx rx, Big E ctx0 (.expr (grammar q) []) c lx rx → r.endAt = rx.endAt → (rx.alive ↔ r.alive) →
      (∀ m, r.Is m → rx.Is m) → (∀ l4' sa', (match ORes.ofRes rx, s3 with
        | .ok v c' _, s' => OOut.done [] (.ok v c' fr) s'
        | r, s' => .done [] r s') = .done l4' r' sa' → l4' = [] ∧ r' = .ofRes r ∧ sa' = s3) →
      SimT E I T Lg lx r (l3 ++ l4) r' (memoStore o c (.rule q) r' sa) := by
    intro lx rx hbx hfin hal his hres
    rcases body lx rx l3 r3 s3 hbx h3 with ⟨x, herr1, herr2⟩ | ⟨a1, a2, a3, a4, a5, a7⟩
    · refine .inl ⟨x, herr1, ?_⟩
      rw [errorsOf_append, List.head?_append, herr2]; rfl
    · rw [a5] at h4
      obtain ⟨rfl, rfl, rfl⟩ := hres _ _ h4
      rw [List.append_nil]
      refine .inr ⟨a1, a2, a3, a4, rfl, fun ha => ?_⟩
      obtain ⟨m, hm, hst⟩ := same_store (c := c) (k := .rule q) (s := sa) ho (r' := .ofRes r) (same_ofRes r) ha
      rw [hst]
      refine ⟨(a7 (hal.2 ha)).1.set hc ?_ ?_ ?_, hT _ _ (by rw [hfin]; exact (a7 (hal.2 ha)).2)⟩
      · exact ⟨lx, rx, by rw [hq]; exact hbx, his m hm, a1, a3⟩
      · intro n' a x e' _ hk; cases hk
      · intro hk
        simp only [eofKey, beq_iff_eq] at hk
        exact absurd hk hqe
  cases hb with
  | rule_ok hbx =>
    refine ⟨_, rfl, key _ _ hbx rfl ⟨fun h => h, fun h => h⟩ (fun m h => by cases m <;> exact h) ?_⟩
    intro l4' sa' hh
    cases hh
    exact ⟨rfl, rfl, rfl⟩
  | rule_stop hbx hs =>
    refine ⟨_, rfl, key _ _ hbx rfl ⟨fun h => h, fun h => h⟩ (fun m h => h) ?_⟩
    intro l4' sa' hh
    cases r with
    | ok => exact hs.elim
    | fail => cases hh; exact ⟨rfl, rfl, rfl⟩
    | panic => cases hh; exact ⟨rfl, rfl, rfl⟩

omit ho hx in
theorem is_ofRes {m : MRes} {r1 : Res} (h : r1.Is m) (hh : memoHit fr s m = .done l' r' s')
    (hr : (∃ v c' fr1, r1 = .ok v c' fr1 ∧ r = .ok v c' fr) ∨ (r1.stops ∧ r = r1)) :
    l' = [] ∧ s' = s ∧ r' = .ofRes r := by
  cases m with
  | ok v c' =>
    cases hh
    cases r1 <;> first | exact h.elim | skip
    obtain ⟨rfl, rfl⟩ := h
    rcases hr with ⟨_, _, _, h, rfl⟩ | h
    · cases h; exact ⟨rfl, rfl, rfl⟩
    · exact h.1.elim
  | fail c' =>
    cases hh
    cases r1 <;> first | exact h.elim | skip
    obtain rfl := h
    rcases hr with ⟨_, _, _, h, rfl⟩ | h
    · cases h
    · rw [h.2]; exact ⟨rfl, rfl, rfl⟩

/-- A rule that is in the table. -/
theorem simT_again {q : Rule} (hn : nodeAt n = some (.rule q)) (hcode : codeAt n = (false, 0)) (hq : ruleCode q = (false, 0))
    (hc : OnInput I c) (hnl : NotLab (.node n)) (heof : n.1 ≠ .EOF) (hm : MInv E I s Lg)
    (hlk : s.memo.lookup (c.loc.off, .rule q) ≠ none) (hb : Big E ctx0 (.expr (.rule q) []) c l r)
    (h : oRun E o f octx0 n (.rule q) [] c s = .done l' r' s') :
    SimT E I (fun _ s' => Chg (fun off k => off = c.loc.off ∧ k = .node n) s s') Lg l r l' r' s' := by
  have hb1 : ∃ l1 r1, l = .tick :: l1 ∧ Big E ctx0 (.expr (grammar q) []) c l1 r1 ∧
      ((∃ v c' fr1, r1 = .ok v c' fr1 ∧ r = .ok v c' []) ∨ (r1.stops ∧ r = r1)) := by
    cases hb with
    | rule_ok hbx => exact ⟨_, _, rfl, hbx, .inl ⟨_, _, _, rfl, rfl⟩⟩
    | rule_stop hbx hs => exact ⟨_, _, rfl, hbx, .inr ⟨hs, rfl⟩⟩
  obtain ⟨l1, r1, rfl, hb1, hr⟩ := hb1
  cases hnk : s.memo.lookup (c.loc.off, .node n) with
  | some m =>
    cases f with
    | zero => cases h
    | succ g =>
      unfold oRun memoized at h
      rw [ho, if_pos rfl, show getMemoized c (.node n) s = some m from hnk] at h
      obtain ⟨lx, rx, hbx, hx1, hx2, hx3, hx4⟩ := hm.sound _ _ _ hnk c hc rfl _ hn
      rw [hcode] at hbx
      obtain ⟨rfl, rfl⟩ := hb.det hbx
      have := is_ofRes (r := r) hx1 h (by
        rcases hr with ⟨v, c', fr1, rfl, rfl⟩ | ⟨hs, rfl⟩
        · exact .inl ⟨_, _, _, rfl, rfl⟩
        · exact .inr ⟨hs, rfl⟩)
      obtain ⟨rfl, rfl, rfl⟩ := this
      refine .inr ⟨hx2, rfl, ?_, List.nil_sublist _, rfl, fun _ => ⟨?_, chg_refl⟩⟩
      · rw [List.append_nil]; exact hx3
      · rw [List.append_nil]; exact hm
  | none =>
    refine simT_miss (T := fun _ s' => Chg (fun off k => off = c.loc.off ∧ k = .node n) s s') ho hx hn hcode hc hnk hnl
      heof ⟨r, hb, fun _ h => h, ?_⟩ h ?_ (fun m s1 hs => hs.set m ⟨rfl, rfl⟩)
    · intro _
      rcases hr with ⟨v, c', fr1, rfl, rfl⟩ | ⟨hs, rfl⟩
      · rfl
      · cases r <;> first | exact hs.elim | trivial
    · intro g cnt l2 r2 s2 _ h2
      refine ⟨l1, rfl, ?_⟩
      unfold oStep oParseRule memoized at h2
      dsimp only at h2
      obtain ⟨m, hmk⟩ := Option.ne_none_iff_exists'.1 hlk
      rw [ho, if_pos rfl, show getMemoized c (.rule q) ⟨cnt, s.memo⟩ = some m from hmk] at h2
      obtain ⟨lx, rx, hbx, hx1, hx2, hx3⟩ := hm.sound _ _ _ hmk c hc rfl
      rw [hq] at hbx
      obtain ⟨rfl, rfl⟩ := hb1.det hbx
      obtain ⟨rfl, rfl, rfl⟩ := is_ofRes (r := r) hx1 h2 hr
      refine .inr ⟨hx2, rfl, ?_, List.nil_sublist _, rfl, fun _ => ⟨?_, fun _ _ _ _ => rfl⟩⟩
      · rw [List.append_nil]; exact hx3
      · rw [List.append_nil]; exact hm.cnt cnt

end

/-! ### Steps -/

section
variable {T T1 : Option Cursor → PState → Prop} {Lg l l' : List Ev} {r : Res} {r' : ORes} {s s' : PState} {c st : Cursor}
  {n : NodeId} {e : PExpr} {es : List PExpr} {fr : VFrame} {f k i : Nat} {acc : List PV}

theorem simT_label {x : PLabel} (hb : Big E ctx0 (.expr (.label x e) fr) c l r)
    (h : oStep E o k (oRun E o f) octx0 n (.label x e) fr c s = .done l' r' s')
    (body : ∀ la ra l1 r1 s1, Big E ctx0 (.expr e []) c la ra → oRun E o f octx0 (n.child 0) e [] c s = .done l1 r1 s1 →
      SimT E I T Lg la ra l1 r1 s1) : ∃ l0, l = .tick :: l0 ∧ SimT E I T Lg l0 r l' r' s' := by
  unfold oStep at h
  obtain ⟨l1, r1, s1, l2, h1, h2, rfl⟩ := oAndThen_done h
  cases hb with
  | label_ok hbx =>
    refine ⟨_, rfl, (body _ _ _ _ _ hbx h1).bind0 fun _ hr hm => ?_⟩
    subst hr
    cases h2
    exact simT_nil (r := .ok _ _ _) hm
  | label_stop hbx hs =>
    refine ⟨_, rfl, (body _ _ _ _ _ hbx h1).bind0 fun _ hr hm => ?_⟩
    subst hr
    cases r with
    | ok => exact hs.elim
    | fail => cases h2; exact simT_nil (r := .fail _) hm
    | panic => cases h2; exact simT_nil (r := .panic _ _) hm

theorem simT_action {a : Act} (hb : Big E ctx0 (.expr (.action a e) fr) c l r)
    (h : oStep E o k (oRun E o f) octx0 n (.action a e) fr c s = .done l' r' s')
    (body : ∀ la ra l1 r1 s1, Big E ctx0 (.expr e fr) c la ra → oRun E o f octx0 (n.child 0) e fr c s = .done l1 r1 s1 →
      SimT E I T Lg la ra l1 r1 s1) : ∃ l0, l = .tick :: l0 ∧ SimT E I T Lg l0 r l' r' s' := by
  unfold oStep at h
  obtain ⟨l1, r1, s1, l2, h1, h2, rfl⟩ := oAndThen_done h
  cases hb with
  | action_ok hbx hact =>
    refine ⟨_, rfl, (body _ _ _ _ _ hbx h1).bind0 fun _ hr hm => ?_⟩
    subst hr
    simp only [ORes.ofRes, actStep, hact, OOut.ofOut] at h2
    cases h2
    exact simT_nil (r := .ok _ _ _) hm
  | action_err hbx hact =>
    refine ⟨_, rfl, (body _ _ _ _ _ hbx h1).bind fun _ hr hm => ?_⟩
    subst hr
    simp only [ORes.ofRes, actStep, hact, OOut.ofOut] at h2
    cases h2
    exact .inl ⟨_, rfl, rfl⟩
  | action_panic hbx hact =>
    refine ⟨_, rfl, (body _ _ _ _ _ hbx h1).bind0 fun _ hr hm => ?_⟩
    subst hr
    simp only [ORes.ofRes, actStep, hact, OOut.ofOut] at h2
    cases h2
    exact simT_nil (r := .panic _ _) fun h => h.elim
  | action_stop hbx hs =>
    refine ⟨_, rfl, (body _ _ _ _ _ hbx h1).bind0 fun _ hr hm => ?_⟩
    subst hr
    cases r with
    | ok => exact hs.elim
    | fail => cases h2; exact simT_nil (r := .fail _) hm
    | panic => cases h2; exact simT_nil (r := .panic _ _) hm

theorem simT_seq (hb : Big E ctx0 (.seq st (e :: es) acc fr) c l r)
    (h : oSeqLoop (oRun E o f) octx0 n st i (e :: es) acc fr c s = .done l' r' s')
    (item : ∀ la ra l1 r1 s1, Big E ctx0 (.expr e fr) c la ra → oRun E o f octx0 (n.child i) e fr c s = .done l1 r1 s1 →
      SimT E I T1 Lg la ra l1 r1 s1)
    (kok : ∀ la v c' fr' lb l1 l2 s1, Big E ctx0 (.expr e fr) c la (.ok v c' fr') → errorsOf la = [] →
      T1 (some c') s1 → MInv E I s1 (Lg ++ l1) → Big E ctx0 (.seq st es (acc ++ [v]) fr') c' lb r →
      oSeqLoop (oRun E o f) octx0 n st (i + 1) es (acc ++ [v]) fr' c' s1 = .done l2 r' s' →
      SimT E I T (Lg ++ l1) lb r l2 r' s')
    (kfail : ∀ la s1, Big E ctx0 (.expr e fr) c la (.fail c) → T1 none s1 → T none s1) :
    SimT E I T Lg l r l' r' s' := by
  obtain ⟨l1, r1, s1, l2, h1, h2, rfl⟩ := oAndThen_done h
  cases hb with
  | seq_cons hba hbb =>
    refine (item _ _ _ _ _ hba h1).bind fun he hr hm => ?_
    subst hr
    exact kok _ _ _ _ _ _ _ _ hba he (hm trivial).2 (hm trivial).1 hbb h2
  | seq_fail hba =>
    refine (item _ _ _ _ _ hba h1).bind0 fun he hr hm => ?_
    subst hr
    cases hba.fail_back
    cases h2
    exact simT_nil (r := .fail _) fun _ => ⟨(hm trivial).1, kfail _ _ hba (hm trivial).2⟩
  | seq_panic hba =>
    refine (item _ _ _ _ _ hba h1).bind0 fun he hr hm => ?_
    subst hr
    cases h2
    exact simT_nil (r := .panic _ _) fun h => h.elim

theorem simT_seq_nil (hb : Big E ctx0 (.seq st [] acc fr) c l r)
    (h : oSeqLoop (oRun E o f) octx0 n st i [] acc fr c s = .done l' r' s') (hm : MInv E I s Lg) (hT : T (some c) s) :
    SimT E I T Lg l r l' r' s' := by
  cases hb
  cases h
  exact simT_nil (r := .ok _ _ _) fun _ => ⟨hm, hT⟩

theorem simT_choice (hb : Big E ctx0 (.choice fr (e :: es)) c l r)
    (h : oChoiceLoop (oRun E o f) octx0 n fr i (e :: es) c s = .done l' r' s')
    (item : ∀ la ra l1 r1 s1, Big E ctx0 (.expr e []) c la ra → oRun E o f octx0 (n.child i) e [] c s = .done l1 r1 s1 →
      SimT E I T1 Lg la ra l1 r1 s1)
    (kok : ∀ la v c' fr' s1, Big E ctx0 (.expr e []) c la (.ok v c' fr') → errorsOf la = [] → T1 (some c') s1 →
      T (some c') s1)
    (kfail : ∀ la lb l1 l2 s1, Big E ctx0 (.expr e []) c la (.fail c) → errorsOf la = [] → T1 none s1 →
      MInv E I s1 (Lg ++ l1) → Big E ctx0 (.choice fr es) c lb r →
      oChoiceLoop (oRun E o f) octx0 n fr (i + 1) es c s1 = .done l2 r' s' → SimT E I T (Lg ++ l1) lb r l2 r' s') :
    SimT E I T Lg l r l' r' s' := by
  obtain ⟨l1, r1, s1, l2, h1, h2, rfl⟩ := oAndThen_done h
  cases hb with
  | choice_ok hba =>
    refine (item _ _ _ _ _ hba h1).bind0 fun he hr hm => ?_
    subst hr
    cases h2
    exact simT_nil (r := .ok _ _ _) fun _ => ⟨(hm trivial).1, kok _ _ _ _ _ hba he (hm trivial).2⟩
  | choice_next hba hbb =>
    refine (item _ _ _ _ _ hba h1).bind fun he hr hm => ?_
    subst hr
    cases hba.fail_back
    exact kfail _ _ _ _ _ hba he (hm trivial).2 (hm trivial).1 hbb h2
  | choice_panic hba =>
    refine (item _ _ _ _ _ hba h1).bind0 fun he hr hm => ?_
    subst hr
    cases h2
    exact simT_nil (r := .panic _ _) fun h => h.elim

theorem simT_choice_nil (hb : Big E ctx0 (.choice fr []) c l r)
    (h : oChoiceLoop (oRun E o f) octx0 n fr i [] c s = .done l' r' s') (hm : MInv E I s Lg) (hT : T none s) :
    SimT E I T Lg l r l' r' s' := by
  cases hb
  cases h
  exact simT_nil (r := .fail _) fun _ => ⟨hm, hT⟩

end

/-! ### What is no clause, whatever labels are set -/

/-- Set the labels of a result. -/
def ORes.framed (fr : VFrame) : ORes → ORes
  | .ok v c _ => .ok v c fr
  | r => r

def OOut.framed (fr : VFrame) : OOut → OOut
  | .oof => .oof
  | .done l r s => .done l (r.framed fr) s

def Res.framed (fr : VFrame) : Res → Res
  | .ok v c _ => .ok v c fr
  | r => r

theorem memoized_framed {k : MKey} {fr : VFrame} {c : Cursor} {s : PState} {b b0 : PState → OOut}
    (h : ∀ s, b s = (b0 s).framed fr) : memoized o k fr c s b = (memoized o k [] c s b0).framed fr := by
  unfold memoized
  split
  · rename_i m _
    cases m <;> rfl
  · rw [h]
    cases b0 s with
    | oof => rfl
    | done l r s' => cases r <;> rfl

/-- An expression that leaves the labels alone. -/
def plainItem : PExpr → Bool
  | .rule _ => true
  | .lit .. => true
  | _ => false

theorem oTick_framed {fr : VFrame} {c : Cursor} {s : PState} {b b0 : PState → OOut} (h : ∀ s, b s = (b0 s).framed fr) :
    oTick o c s b = (oTick o c s b0).framed fr := by
  unfold oTick
  dsimp only
  split
  · rfl
  · unfold OOut.andThen
    dsimp only
    rw [h]
    cases b0 ⟨(s.cnt + 1) % 2 ^ 64, s.memo⟩ with
    | oof => rfl
    | done l r s' => rfl

theorem oRun_framed {e : PExpr} (he : plainItem e = true) (f : Nat) (ctx : OCtx) (n : NodeId) (fr : VFrame) (c : Cursor)
    (s : PState) : oRun E o f ctx n e fr c s = (oRun E o f ctx n e [] c s).framed fr := by
  cases f with
  | zero => rfl
  | succ f =>
    unfold oRun
    refine memoized_framed fun s => oTick_framed fun s => ?_
    cases e <;> first | cases he | skip
    · rename_i q
      unfold oStep oParseRule
      refine memoized_framed fun s => ?_
      cases oRun E o f ctx (q, []) (grammar q) [] c s with
      | oof => rfl
      | done l r s' => cases r <;> rfl
    · rename_i w ic want
      unfold oStep step
      dsimp only
      cases litLoop E ic w c with
      | mk l oc => cases oc <;> rfl

theorem big_framed {ctx : Ctx} {e : PExpr} (he : plainItem e = true) {fr : VFrame} {c : Cursor} {l : List Ev} {r : Res}
    (h : Big E ctx (.expr e fr) c l r) : ∃ r0, Big E ctx (.expr e []) c l r0 ∧ r = r0.framed fr := by
  cases h <;> first | cases he | skip
  · rename_i h
    exact ⟨_, .rule_ok h, rfl⟩
  · rename_i hs h
    refine ⟨_, .rule_stop h hs, ?_⟩
    cases r <;> first | exact hs.elim | rfl
  · rename_i h
    exact ⟨_, .lit_ok h, rfl⟩
  · rename_i h
    exact ⟨_, .lit_fail h, rfl⟩

theorem simT_lex (ho : o.memoize = true) (hx : o.maxExprs = 0) {n : NodeId} {e : PExpr} {fr : VFrame} {f : Nat} {c : Cursor}
    {s s' : PState} {Lg l l' : List Ev} {r : Res} {r' : ORes} (hn : nodeAt n = some e) (hst : n.1 ≠ .Start)
    (hN : lexN e = true) (hp : plainItem e = true) (hcode : codeAt n = (false, 0)) (hbs : bsNeed n = false) (hc : OnInput I c)
    (hm : MInv E I s Lg) (hb : Big E ctx0 (.expr e fr) c l r) (h : oRun E o f octx0 n e fr c s = .done l' r' s') :
    SimT E I (fun _ s' => Untr s s') Lg l r l' r' s' := by
  obtain ⟨r0, hb0, rfl⟩ := big_framed hp hb
  rw [oRun_framed hp] at h
  cases hr : oRun E o f octx0 n e [] c s with
  | oof => rw [hr] at h; cases h
  | done l1 r1 s1 =>
    rw [hr] at h
    cases h
    rcases lex_run ho hx f n e c s s Lg l r0 l' r1 s' hn hst (lexN_E hN) hc (by rw [hbs]; intro h; cases h) hm untr_refl
      (by rw [hcode]; exact hb0) (by rw [hcode]; exact hr) with herr | ⟨a1, a2, a3, a4, a5, a6, a7⟩
    · exact .inl herr
    · refine .inr ⟨a1, a2, a3, a4, ?_, fun ha => a7 (by cases r0 <;> exact ha)⟩
      cases r0 with
      | ok v c' fr' =>
        cases r1 <;> first | exact a5.elim | skip
        obtain ⟨rfl, rfl⟩ := a5
        rfl
      | fail c' =>
        cases r1 <;> first | exact a5.elim | skip
        obtain rfl := a5
        rfl
      | panic p c' =>
        cases r1 with
        | ok => exact a5.elim
        | fail => exact a5.elim
        | panic p' c1 =>
          cases p' with
          | none => exact a5.elim
          | some p' => obtain ⟨rfl, rfl⟩ := a5; rfl

end Aql
