import Verif.Proofs.MemoSim
/-!
The run with `Memoize` agrees with the run without it on the expressions that belong to no clause.
-/

namespace Aql

variable {E : Env} {I : List Sym} {o : Opts}

theorem octx_not (k : CCode) : ({ k.octx with inv := !k.octx.inv } : OCtx) = CCode.octx (!k.1, k.2) := by
  rcases k with ⟨b, _ | _ | _ | n⟩ <;> rfl

theorem ctx_not (k : CCode) : ({ k.ctx with inv := !k.ctx.inv } : Ctx) = CCode.ctx (!k.1, k.2) := by
  rcases k with ⟨b, _ | _ | _ | n⟩ <;> rfl

section
variable {N : Bool} {T : PState → Prop} {Lg l l' : List Ev} {r : Res} {r' : ORes} {s s' : PState} {c : Cursor}

theorem is_same {m : MRes} {fr : VFrame} (h : r.Is m) (hh : memoHit fr s m = .done l' r' s') :
    l' = [] ∧ s' = s ∧ r.Same r' ∧ (fr = [] → r'.noFr) := by
  cases m with
  | ok v c' =>
    cases hh
    cases r <;> first | exact h.elim | skip
    exact ⟨rfl, rfl, h, fun h => h⟩
  | fail c' =>
    cases hh
    cases r <;> first | exact h.elim | skip
    exact ⟨rfl, rfl, h, fun _ => trivial⟩

/-- What is in the table is not evaluated again. -/
theorem sim_hit {n : NodeId} {e : PExpr} {m : MRes} (hm : MInv E I s Lg) (hc : OnInput I c) (hn : nodeAt n = some e)
    (hb : Big E (codeAt n).ctx (.expr e []) c l r) (hl : s.memo.lookup (c.loc.off, .node n) = some m)
    (h : memoHit [] s m = .done l' r' s') (hT : T s) : Sim E I (lexN e) T Lg l r l' r' s' := by
  obtain ⟨l1, r1, h1, h2, h3, h4, h5⟩ := hm.sound _ _ _ hl c hc rfl e hn
  obtain ⟨rfl, rfl⟩ := hb.det h1
  obtain ⟨rfl, rfl, a3, a4⟩ := is_same h2 h
  refine .inr ⟨h3, rfl, ?_, List.nil_sublist _, a3, fun h => ⟨h5 h, a4 rfl⟩, fun _ => ⟨?_, hT⟩⟩
  · rw [List.append_nil]; exact h4
  · rw [List.append_nil]; exact hm

theorem same_store {k : MKey} (ho : o.memoize = true) (h : r.Same r') (ha : r.alive) :
    ∃ m, r.Is m ∧ memoStore o c k r' s = setMemoized c k m s := by
  cases r with
  | panic p c => exact ha.elim
  | ok v c1 fr =>
    cases r' with
    | ok v' c' fr' => exact ⟨.ok v' c', h, by unfold memoStore; rw [ho, if_pos rfl]⟩
    | fail c' => exact h.elim
    | panic p c' => exact h.elim
  | fail c1 =>
    cases r' with
    | ok v' c' fr' => exact h.elim
    | fail c' => exact ⟨.fail c', h, by unfold memoStore; rw [ho, if_pos rfl]⟩
    | panic p c' => exact h.elim

/-- The result is stored. -/
theorem sim_store {n : NodeId} {e : PExpr} (ho : o.memoize = true) (h : Sim E I N T Lg l r l' r' s') (hc : OnInput I c)
    (hn : nodeAt n = some e) (hlab : ∀ x e', e ≠ .label x e') (hbs : bsNeed n = true → AfterBs I c)
    (hb : Big E (codeAt n).ctx (.expr e []) c l r) (hN : lexN e = true → N = true)
    (hT : ∀ s m, T s → T (setMemoized c (.node n) m s)) :
    Sim E I N T Lg l r l' r' (memoStore o c (.node n) r' s') := by
  rcases h with h | ⟨a1, a2, a3, a4, a5, a6, a7⟩
  · exact .inl h
  · refine .inr ⟨a1, a2, a3, a4, a5, a6, fun ha => ?_⟩
    obtain ⟨m, hm, hs⟩ := same_store (c := c) (k := .node n) (s := s') ho a5 ha
    rw [hs]
    refine ⟨(a7 ha).1.set hc ?_ (notLab_of hn hlab) ?_, hT _ _ (a7 ha).2⟩
    · intro e' he'
      rw [hn] at he'
      cases he'
      exact ⟨l, r, hb, hm, a1, a3, fun h => (a6 (hN h)).1⟩
    · intro hk
      refine hbs ?_
      simp only [eofKey, beq_iff_eq] at hk
      simp [bsNeed, hk]

/-- The result of a rule is stored. -/
theorem sim_store_rule {q : Rule} (ho : o.memoize = true) {r0 : Res} {r1 : ORes} (h : Sim E I N T Lg l r l' r' s')
    (hc : OnInput I c) (hbs : q = .EOF → AfterBs I c)
    (hb : Big E (ruleCode q).ctx (.expr (grammar q) []) c l r0) (h0 : ∀ m, r.Is m → r0.Is m)
    (h1 : memoStore o c (.rule q) r1 s' = memoStore o c (.rule q) r' s')
    (hT : ∀ s m, T s → T (setMemoized c (.rule q) m s)) :
    Sim E I N T Lg l r l' r' (memoStore o c (.rule q) r1 s') := by
  rcases h with h | ⟨a1, a2, a3, a4, a5, a6, a7⟩
  · exact .inl h
  · refine .inr ⟨a1, a2, a3, a4, a5, a6, fun ha => ?_⟩
    obtain ⟨m, hm, hs⟩ := same_store (c := c) (k := .rule q) (s := s') ho a5 ha
    rw [h1, hs]
    refine ⟨(a7 ha).1.set hc ?_ ?_ ?_, hT _ _ (a7 ha).2⟩
    · exact ⟨l, r0, hb, h0 m hm, a1, a3⟩
    · intro n a x e _ h; cases h
    · intro hk
      simp only [eofKey, beq_iff_eq] at hk
      exact hbs hk

/-- The same step in both runs. -/
theorem sim_same (hm : MInv E I s Lg) (hT : T s) (hN : N = true → r.noFr) : Sim E I N T Lg l r l (.ofRes r) s := by
  rcases he : errorsOf l with _ | ⟨x, xs⟩
  · refine .inr ⟨he, he, subLog_right _ _, List.Sublist.refl _, ?_, ?_, fun _ => ⟨hm.mono (subLog_left _ _), hT⟩⟩
    · cases r <;> simp [Res.Same, ORes.ofRes]
    · intro h
      have := hN h
      refine ⟨this, ?_⟩
      cases r <;> exact this
  · exact .inl ⟨x, by rw [he]; rfl, by rw [he]; rfl⟩

end

/-- What a run with the fuel does on expressions that belong to no clause. -/
def LexOk (E : Env) (I : List Sym) (o : Opts) (f : Nat) : Prop :=
  ∀ n e c s s0 Lg l r l' r' s', nodeAt n = some e → n.1 ≠ .Start → lexE e = true → OnInput I c →
    (bsNeed n = true → AfterBs I c) → MInv E I s Lg → Untr s0 s → Big E (codeAt n).ctx (.expr e []) c l r →
    oRun E o f (codeAt n).octx n e [] c s = .done l' r' s' → Sim E I (lexN e) (Untr s0) Lg l r l' r' s'

theorem lexAll_cons {m : Nat} {e : PExpr} {es : List PExpr} (h : lexAll m (e :: es) = true) :
    lexM m e = true ∧ lexAll m es = true := by
  simpa only [lexAll, Bool.and_eq_true] using h

theorem drop_cons {es0 es : List PExpr} {e : PExpr} {i : Nat} (h : es0.drop i = e :: es) :
    es0[i]? = some e ∧ es0.drop (i + 1) = es ∧ i < es0.length := by
  refine ⟨?_, ?_, ?_⟩
  · have := congrArg (·[0]?) h
    simpa using this
  · have := congrArg (List.drop 1) h
    simpa [List.drop_drop, Nat.add_comm] using this
  · by_contra hc
    rw [List.drop_eq_nil_of_le (by omega)] at h
    cases h

theorem afterBs_lit {ctx : Ctx} {w : Str} {c c' : Cursor} {l : List Ev} {v : PV} {fr fr' : VFrame} (hc : OnInput I c)
    (h : Big E ctx (.expr (.lit ['\\'] false w) fr) c l (.ok v c' fr')) : AfterBs I c' := by
  cases h with
  | lit_ok h =>
    unfold litLoop at h
    cases hr : c.rest with
    | nil => rw [hr] at h; simp at h
    | cons s t =>
      rw [hr] at h
      simp only [Bool.false_eq_true, if_false] at h
      split at h
      · rename_i hs
        simp only [litLoop, Prod.mk.injEq, Option.some.injEq] at h
        refine ⟨c, t, hc, ?_, h.2⟩
        rw [hr]
        cases s with
        | ok x => rw [show x = '\\' from hs]
        | bad b => exact absurd (show '�' = '\\' from hs) (by decide)
      · simp at h

theorem Sim.bind {N1 N : Bool} {T1 T : PState → Prop} {Lg la lx l1 l2 : List Ev} {ra r : Res} {r1 r' : ORes}
    {s1 s' : PState} (h : Sim E I N1 T1 Lg la ra l1 r1 s1)
    (k : ra.Same r1 → (N1 = true → ra.noFr ∧ r1.noFr) → (ra.alive → MInv E I s1 (Lg ++ l1) ∧ T1 s1) →
      Sim E I N T (Lg ++ l1) lx r l2 r' s') : Sim E I N T Lg (la ++ lx) r (l1 ++ l2) r' s' := by
  rcases h with h | ⟨a1, a2, a3, a4, a5, a6, a7⟩
  · exact .err h
  · exact .append a1 a2 a3 a4 (k a5 a6 a7)

theorem Sim.bind0 {N1 N : Bool} {T1 T : PState → Prop} {Lg la l1 l2 : List Ev} {ra r : Res} {r1 r' : ORes}
    {s1 s' : PState} (h : Sim E I N1 T1 Lg la ra l1 r1 s1)
    (k : ra.Same r1 → (N1 = true → ra.noFr ∧ r1.noFr) → (ra.alive → MInv E I s1 (Lg ++ l1) ∧ T1 s1) →
      Sim E I N T (Lg ++ l1) [] r l2 r' s') : Sim E I N T Lg la r (l1 ++ l2) r' s' := by
  have := Sim.bind h k
  rwa [List.append_nil] at this

theorem sim_nil {N : Bool} {T : PState → Prop} {Lg : List Ev} {r : Res} {r' : ORes} {s : PState} (h : r.Same r')
    (hN : N = true → r.noFr ∧ r'.noFr) (hm : r.alive → MInv E I s Lg ∧ T s) : Sim E I N T Lg [] r [] r' s :=
  .inr ⟨rfl, rfl, subLog_nil _, List.nil_sublist _, h, hN, by rw [List.append_nil]; exact hm⟩

theorem sim_stop {N1 N : Bool} {T : PState → Prop} {Lg la l1 : List Ev} {ra : Res} {r1 : ORes} {s1 : PState}
    (h : Sim E I N1 T Lg la ra l1 r1 s1) (hs : ra.stops) : Sim E I N T Lg la ra (l1 ++ []) r1 s1 := by
  refine h.bind0 fun a5 a6 a7 => sim_nil a5 (fun _ => ?_) a7
  cases ra with
  | ok => exact hs.elim
  | fail => cases r1 <;> first | exact a5.elim | exact ⟨trivial, trivial⟩
  | panic => cases r1 <;> first | exact a5.elim | exact ⟨trivial, trivial⟩

theorem same_stop {ra : Res} {r1 : ORes} (h : ra.Same r1) (hs : ra.stops) : ∀ v c fr, r1 ≠ .ok v c fr := by
  cases ra with
  | ok => exact hs.elim
  | fail => cases r1 <;> first | exact h.elim | (intro _ _ _ h; cases h)
  | panic => cases r1 <;> first | exact h.elim | (intro _ _ _ h; cases h)

section
variable {f : Nat} (ih : LexOk E I o f)
include ih

theorem lex_seq {n : NodeId} {es0 : List PExpr} (hn : nodeAt n = some (.seq es0)) (hst : n.1 ≠ .Start) (st : Cursor)
    {s0 : PState} : ∀ es i acc c s Lg l r l' r' s', es0.drop i = es → lexAll 0 es = true → OnInput I c →
    (i < es0.length → bsNeed (n.child i) = true → AfterBs I c) → MInv E I s Lg → Untr s0 s →
    Big E (codeAt n).ctx (.seq st es acc []) c l r →
    oSeqLoop (oRun E o f) (codeAt n).octx n st i es acc [] c s = .done l' r' s' →
    Sim E I true (Untr s0) Lg l r l' r' s' := by
  intro es
  induction es with
  | nil =>
    intro i acc c s Lg l r l' r' s' hd hl hc hbs hm hT hb h
    cases hb
    cases h
    exact sim_same (r := .ok _ _ _) (l := []) hm hT fun _ => rfl
  | cons e es ihs =>
    intro i acc c s Lg l r l' r' s' hd hl hc hbs hm hT hb h
    obtain ⟨hl1, hl2⟩ := lexAll_cons hl
    obtain ⟨hi, hd', hlt⟩ := drop_cons hd
    have hcode : codeAt (n.child i) = codeAt n := codeAt_child hn i
    have hnc : nodeAt (n.child i) = some e := nodeAt_child hn hi
    obtain ⟨l1, r1, s1, l2, h1, h2, rfl⟩ := oAndThen_done h
    rw [← hcode] at h1
    have key : ∀ {la ra}, Big E (codeAt n).ctx (.expr e []) c la ra → Sim E I true (Untr s0) Lg la ra l1 r1 s1 := by
      intro la ra hba
      rw [← hcode] at hba
      have := ih _ e c s s0 Lg la ra l1 r1 s1 hnc hst (lexN_E hl1) hc (hbs hlt) hm hT hba h1
      rwa [show lexN e = true from hl1] at this
    cases hb with
    | @seq_cons _ _ _ _ _ _ _ la v c' fr' lb _ hba hbb =>
      rcases key hba with herr | ⟨a1, a2, a3, a4, a5, a6, a7⟩
      · exact Sim.err herr
      · obtain ⟨hf1, hf2⟩ := a6 rfl
        cases r1 with
        | fail => exact a5.elim
        | panic p => exact a5.elim
        | ok v' c1 fr1 =>
          obtain ⟨rfl, rfl⟩ := a5
          change fr' = [] at hf1
          change fr1 = [] at hf2
          subst hf1 hf2
          obtain ⟨hm1, hT1⟩ := a7 trivial
          obtain ⟨t, ht⟩ := hba.ok_adv
          refine Sim.append a1 a2 a3 a4 (ihs (i + 1) _ _ _ _ _ _ _ _ _ hd' hl2 (hc.adv ht) ?_ hm1 hT1 hbb h2)
          intro hlt' hneed
          have hck := addrCheck_ok hn
          unfold addrCheck at hck
          rw [hn] at hck
          dsimp only at hck
          have := List.all_eq_true.1 hck (i + 1) (List.mem_range.2 hlt')
          simp only [hneed, Bool.not_true, Bool.false_or, Bool.or_eq_true, Bool.and_eq_true, beq_iff_eq,
            Nat.add_eq_zero_iff, one_ne_zero, and_false, false_and, Nat.add_eq_right] at this
          obtain ⟨rfl, hi0⟩ := this.resolve_left (by simp)
          have : i = 0 := by omega
          subst this
          have hes : (some (PExpr.seq es0)) = some (.seq [.lit ['\\'] false "\"\\\\\"".toList, .rule .RegexEscape]) := by
            rw [← hn]; rfl
          cases hes
          cases hi
          exact afterBs_lit hc hba
    | seq_fail hba =>
      rcases key hba with herr | ⟨a1, a2, a3, a4, a5, a6, a7⟩
      · exact Sim.err0 herr
      · cases r1 with
        | ok => exact a5.elim
        | panic p => exact a5.elim
        | fail c1 =>
          cases h2
          rw [List.append_nil]
          exact .inr ⟨a1, a2, a3, a4, rfl, fun _ => ⟨trivial, trivial⟩, fun _ => a7 trivial⟩
    | seq_panic hba =>
      rcases key hba with herr | ⟨a1, a2, a3, a4, a5, a6, a7⟩
      · exact Sim.err0 herr
      · cases r1 with
        | ok => exact a5.elim
        | fail => exact a5.elim
        | panic p c1 =>
          cases p with
          | none => exact a5.elim
          | some p =>
            cases h2
            rw [List.append_nil]
            exact .inr ⟨a1, a2, a3, a4, a5, fun _ => ⟨trivial, trivial⟩, fun h => h.elim⟩

theorem lex_choice {n : NodeId} {es0 : List PExpr} (hn : nodeAt n = some (.choice es0)) (hst : n.1 ≠ .Start)
    {s0 : PState} : ∀ es i c s Lg l r l' r' s', es0.drop i = es → lexAll 1 es = true → OnInput I c →
    (bsNeed n = true → AfterBs I c) → MInv E I s Lg → Untr s0 s →
    Big E (codeAt n).ctx (.choice [] es) c l r →
    oChoiceLoop (oRun E o f) (codeAt n).octx n [] i es c s = .done l' r' s' →
    Sim E I true (Untr s0) Lg l r l' r' s' := by
  intro es
  induction es with
  | nil =>
    intro i c s Lg l r l' r' s' hd hl hc hbs hm hT hb h
    cases hb
    cases h
    exact sim_same (r := .fail _) (l := []) hm hT fun _ => trivial
  | cons e es ihs =>
    intro i c s Lg l r l' r' s' hd hl hc hbs hm hT hb h
    obtain ⟨hl1, hl2⟩ := lexAll_cons hl
    obtain ⟨hi, hd', hlt⟩ := drop_cons hd
    have hcode : codeAt (n.child i) = codeAt n := codeAt_child hn i
    have hnc : nodeAt (n.child i) = some e := nodeAt_child hn hi
    obtain ⟨l1, r1, s1, l2, h1, h2, rfl⟩ := oAndThen_done h
    rw [← hcode] at h1
    have hbs' : bsNeed (n.child i) = true → AfterBs I c := by
      intro hneed
      have hck := addrCheck_ok hn
      unfold addrCheck at hck
      rw [hn] at hck
      dsimp only at hck
      have := List.all_eq_true.1 hck i (List.mem_range.2 hlt)
      simp only [hneed, Bool.not_true, Bool.false_or] at this
      exact hbs this
    have key : ∀ {la ra}, Big E (codeAt n).ctx (.expr e []) c la ra →
        Sim E I (lexN e) (Untr s0) Lg la ra l1 r1 s1 := by
      intro la ra hba
      rw [← hcode] at hba
      exact ih _ e c s s0 Lg la ra l1 r1 s1 hnc hst hl1 hc hbs' hm hT hba h1
    cases hb with
    | choice_ok hba =>
      rcases key hba with herr | ⟨a1, a2, a3, a4, a5, a6, a7⟩
      · exact Sim.err0 herr
      · cases r1 with
        | fail => exact a5.elim
        | panic p => exact a5.elim
        | ok v' c1 fr1 =>
          cases h2
          rw [List.append_nil]
          exact .inr ⟨a1, a2, a3, a4, a5, fun _ => ⟨rfl, rfl⟩, fun _ => a7 trivial⟩
    | choice_next hba hbb =>
      rcases key hba with herr | ⟨a1, a2, a3, a4, a5, a6, a7⟩
      · exact Sim.err herr
      · cases r1 with
        | ok => exact a5.elim
        | panic p => exact a5.elim
        | fail c1 =>
          cases a5
          cases hba.fail_back
          obtain ⟨hm1, hT1⟩ := a7 trivial
          exact Sim.append a1 a2 a3 a4 (ihs (i + 1) _ _ _ _ _ _ _ _ hd' hl2 hc hbs hm1 hT1 hbb h2)
    | choice_panic hba =>
      rcases key hba with herr | ⟨a1, a2, a3, a4, a5, a6, a7⟩
      · exact Sim.err0 herr
      · cases r1 with
        | ok => exact a5.elim
        | fail => exact a5.elim
        | panic p c1 =>
          cases p with
          | none => exact a5.elim
          | some p =>
            cases h2
            rw [List.append_nil]
            exact .inr ⟨a1, a2, a3, a4, a5, fun _ => ⟨trivial, trivial⟩, fun h => h.elim⟩

theorem lex_rep {n : NodeId} {e e0 : PExpr} (one : Bool) (hn : nodeAt n = some e0) (hch : e0.child 0 = some e)
    (hcc : codeAt (n.child 0) = codeAt n) (hst : n.1 ≠ .Start) (hl : lexE e = true)
    (hbs : bsNeed (n.child 0) = false) {s0 : PState} : ∀ k acc c s Lg l r l' r' s', OnInput I c →
    MInv E I s Lg → Untr s0 s → Big E (codeAt n).ctx (.rep [] e one acc) c l r →
    oRepLoop (oRun E o f) (codeAt n).octx n [] e one k acc c s = .done l' r' s' →
    Sim E I true (Untr s0) Lg l r l' r' s' := by
  intro k
  induction k with
  | zero => intro acc c s Lg l r l' r' s' _ _ _ _ h; cases h
  | succ k ihk =>
    intro acc c s Lg l r l' r' s' hc hm hT hb h
    have hnc : nodeAt (n.child 0) = some e := nodeAt_child hn hch
    obtain ⟨l1, r1, s1, l2, h1, h2, rfl⟩ := oAndThen_done h
    rw [← hcc] at h1
    have key : ∀ {la ra}, Big E (codeAt n).ctx (.expr e []) c la ra →
        Sim E I (lexN e) (Untr s0) Lg la ra l1 r1 s1 := by
      intro la ra hba
      rw [← hcc] at hba
      exact ih _ e c s s0 Lg la ra l1 r1 s1 hnc hst hl hc (by rw [hbs]; intro h; cases h) hm hT hba h1
    cases hb with
    | rep_next hba hbb =>
      rcases key hba with herr | ⟨a1, a2, a3, a4, a5, a6, a7⟩
      · exact Sim.err herr
      · cases r1 with
        | fail => exact a5.elim
        | panic p => exact a5.elim
        | ok v' c1 fr1 =>
          obtain ⟨rfl, rfl⟩ := a5
          obtain ⟨hm1, hT1⟩ := a7 trivial
          obtain ⟨t, ht⟩ := hba.ok_adv
          exact Sim.append a1 a2 a3 a4 (ihk _ _ _ _ _ _ _ _ _ (hc.adv ht) hm1 hT1 hbb h2)
    | rep_stop hba hne =>
      rcases key hba with herr | ⟨a1, a2, a3, a4, a5, a6, a7⟩
      · exact Sim.err0 herr
      · cases r1 with
        | ok => exact a5.elim
        | panic p => exact a5.elim
        | fail c1 =>
          dsimp only at h2
          rw [if_neg hne] at h2
          cases h2
          rw [List.append_nil]
          exact .inr ⟨a1, a2, a3, a4, ⟨rfl, a5⟩, fun _ => ⟨rfl, rfl⟩, fun _ => a7 trivial⟩
    | rep_fail hba =>
      rcases key hba with herr | ⟨a1, a2, a3, a4, a5, a6, a7⟩
      · exact Sim.err0 herr
      · cases r1 with
        | ok => exact a5.elim
        | panic p => exact a5.elim
        | fail c1 =>
          dsimp only at h2
          rw [if_pos ⟨rfl, rfl⟩] at h2
          cases h2
          rw [List.append_nil]
          exact .inr ⟨a1, a2, a3, a4, a5, fun _ => ⟨trivial, trivial⟩, fun _ => a7 trivial⟩
    | rep_panic hba =>
      rcases key hba with herr | ⟨a1, a2, a3, a4, a5, a6, a7⟩
      · exact Sim.err0 herr
      · cases r1 with
        | ok => exact a5.elim
        | fail => exact a5.elim
        | panic p c1 =>
          cases p with
          | none => exact a5.elim
          | some p =>
            cases h2
            rw [List.append_nil]
            exact .inr ⟨a1, a2, a3, a4, a5, fun _ => ⟨trivial, trivial⟩, fun h => h.elim⟩

omit ih in
/-- The code of an action. -/
theorem lex_act {a : Act} {e' : PExpr} {N1 N : Bool} {T : PState → Prop} {c : Cursor} {fr : VFrame}
    {Lg l l1 l2 : List Ev} {r : Res} {r1 r' : ORes} {s1 s' : PState} (ctx : Ctx)
    (hb : Big E ctx (.expr (.action a e') fr) c l r)
    (key : ∀ la ra, Big E ctx (.expr e' fr) c la ra → Sim E I N1 T Lg la ra l1 r1 s1)
    (hfr : ∀ la v c' fr' v' c1 fr1, Big E ctx (.expr e' fr) c la (.ok v c' fr') → r1 = .ok v' c1 fr1 →
      (N1 = true → fr' = [] ∧ fr1 = []) → v = v' → c' = c1 → fr' = fr1 ∧ (N = true → fr1 = []))
    (h2 : (match r1, s1 with
      | .ok _ c' fr', s' => OOut.ofOut s' (actStep E a c c' fr')
      | r, s' => .done [] r s') = .done l2 r' s') :
    ∃ l0, l = .tick :: l0 ∧ Sim E I N T Lg l0 r (l1 ++ l2) r' s' := by
  cases hb with
  | @action_ok _ _ _ _ _ la v c' fr' v' hba hact =>
    refine ⟨_, rfl, (key _ _ hba).bind0 fun a5 a6 a7 => ?_⟩
    cases r1 with
    | fail => exact a5.elim
    | panic => exact a5.elim
    | ok v1 c1 fr1 =>
      obtain ⟨rfl, rfl⟩ := a5
      obtain ⟨rfl, hN⟩ := hfr _ _ _ _ _ _ _ hba rfl (fun h => a6 h) rfl rfl
      dsimp only at h2
      unfold actStep at h2
      rw [hact] at h2
      cases h2
      exact sim_nil ⟨rfl, rfl⟩ (fun h => ⟨hN h, hN h⟩) fun _ => a7 trivial
  | @action_err _ _ _ _ _ la v c' fr' v' er hba hact =>
    refine ⟨_, rfl, (key _ _ hba).bind fun a5 a6 a7 => ?_⟩
    cases r1 with
    | fail => exact a5.elim
    | panic => exact a5.elim
    | ok v1 c1 fr1 =>
      obtain ⟨rfl, rfl⟩ := a5
      obtain ⟨rfl, hN⟩ := hfr _ _ _ _ _ _ _ hba rfl (fun h => a6 h) rfl rfl
      dsimp only at h2
      unfold actStep at h2
      rw [hact] at h2
      cases h2
      exact .inl ⟨_, rfl, rfl⟩
  | @action_panic _ _ _ _ _ la v c' fr' p hba hact =>
    refine ⟨_, rfl, (key _ _ hba).bind0 fun a5 a6 a7 => ?_⟩
    cases r1 with
    | fail => exact a5.elim
    | panic => exact a5.elim
    | ok v1 c1 fr1 =>
      obtain ⟨rfl, rfl⟩ := a5
      obtain ⟨rfl, hN⟩ := hfr _ _ _ _ _ _ _ hba rfl (fun h => a6 h) rfl rfl
      dsimp only at h2
      unfold actStep at h2
      rw [hact] at h2
      cases h2
      exact sim_nil ⟨rfl, rfl⟩ (fun _ => ⟨trivial, trivial⟩) fun h => h.elim
  | action_stop hba hs =>
    refine ⟨_, rfl, (key _ _ hba).bind0 fun a5 a6 a7 => ?_⟩
    cases r1 with
    | ok => exact absurd rfl (same_stop a5 hs _ _ _)
    | fail c1 =>
      cases h2
      exact sim_nil a5 (fun _ => by cases r <;> first | exact hs.elim | exact ⟨trivial, trivial⟩) a7
    | panic p c1 =>
      cases h2
      exact sim_nil a5 (fun _ => by cases r <;> first | exact hs.elim | exact ⟨trivial, trivial⟩) a7

theorem lex_step (ho : o.memoize = true) {n : NodeId} {e : PExpr} {c : Cursor} {s s0 : PState} {Lg l l' : List Ev} {r : Res} {r' : ORes}
    {s' : PState} (hn : nodeAt n = some e) (hst : n.1 ≠ .Start) (hN : lexN e = true) (hc : OnInput I c)
    (hbs : bsNeed n = true → AfterBs I c) (hm : MInv E I s Lg) (hT : Untr s0 s)
    (hb : Big E (codeAt n).ctx (.expr e []) c l r)
    (h : oStep E o f (oRun E o f) (codeAt n).octx n e [] c s = .done l' r' s') :
    ∃ l0, l = .tick :: l0 ∧ Sim E I true (Untr s0) Lg l0 r l' r' s' := by
  have hck := addrCheck_ok hn
  unfold addrCheck at hck
  rw [hn] at hck
  cases e with
  | action a e =>
    dsimp only at hck
    unfold oStep at h
    have hcode : codeAt (n.child 0) = codeAt n := codeAt_child hn 0
    obtain ⟨l1, r1, s1, l2, h1, h2, rfl⟩ := oAndThen_done h
    have hN' : lexN e = true := hN
    refine lex_act (N1 := true) (codeAt n).ctx hb (fun la ra hba => ?_) ?_ h2
    · rw [← hcode] at hba h1
      have := ih _ e c s s0 Lg la ra l1 r1 s1 (nodeAt_child hn rfl) hst (lexN_E hN') hc
        (fun hx => hbs (by simpa [hx] using hck)) hm hT hba h1
      rwa [hN'] at this
    · intro la v c' fr' v' c1 fr1 _ _ hf _ _
      obtain ⟨rfl, rfl⟩ := hf rfl
      exact ⟨rfl, fun _ => rfl⟩
  | seq es =>
    unfold oStep at h
    cases hb with
    | seq hb =>
      refine ⟨_, rfl, lex_seq ih hn hst c es 0 [] c s Lg _ _ _ _ _ rfl hN hc ?_ hm hT hb h⟩
      intro hlt hneed
      dsimp only at hck
      have := List.all_eq_true.1 hck 0 (List.mem_range.2 hlt)
      simp only [hneed, Bool.not_true, Bool.false_or, beq_self_eq_true, Bool.true_and, Bool.or_eq_true,
        Bool.and_eq_true, beq_iff_eq] at this
      exact hbs (this.resolve_right (by simp))
  | choice es =>
    unfold oStep at h
    cases hb with
    | choice hb => exact ⟨_, rfl, lex_choice ih hn hst es 0 c s Lg _ _ _ _ _ rfl hN hc hbs hm hT hb h⟩
  | label x e => cases hN
  | rule q =>
    dsimp only at hck
    rw [Bool.or_eq_true, Bool.and_eq_true] at hck
    obtain ⟨hq, hqb⟩ := hck.resolve_left (by simpa using hst)
    have hq : codeAt n = ruleCode q := by simpa using hq
    unfold oStep oParseRule memoized at h
    dsimp only at h
    rw [ho, if_pos rfl] at h
    rw [hq] at hb
    have key : ∀ {l1 r1}, Big E (ruleCode q).ctx (.expr (grammar q) []) c l1 r1 → ∀ {rr : Res},
        (∀ v c' fr, r1 = .ok v c' fr → rr = .ok v c' []) → (r1.stops → rr = r1) → 
        Sim E I true (Untr s0) Lg l1 rr l' r' s' := by
      intro l1 r1 hb1 rr hr1 hr2
      split at h
      · rename_i m hlk
        obtain ⟨l2, r2, g1, g2, g3, g4⟩ := hm.sound _ _ _ hlk c hc rfl
        obtain ⟨rfl, rfl⟩ := hb1.det g1
        obtain ⟨rfl, rfl, a3, a4⟩ := is_same g2 h
        refine .inr ⟨g3, rfl, ?_, List.nil_sublist _, ?_, fun _ => ⟨?_, a4 rfl⟩, fun _ => ⟨?_, hT⟩⟩
        · rw [List.append_nil]; exact g4
        · cases l2r : r1 with
          | ok v c' fr => rw [hr1 _ _ _ l2r]; rw [l2r] at a3; cases r' <;> exact a3
          | fail c' => rw [hr2 (by rw [l2r]; trivial)]; rw [l2r] at a3; rw [l2r]; exact a3
          | panic p c' => rw [l2r] at g2; exact g2.elim
        · cases l2r : r1 with
          | ok v c' fr => rw [hr1 _ _ _ l2r]; rfl
          | fail c' => rw [hr2 (by rw [l2r]; trivial), l2r]; trivial
          | panic p c' => rw [l2r] at g2; exact g2.elim
        · rw [List.append_nil]; exact hm
      · obtain ⟨la, ra, sa, lb, h1, h2, rfl⟩ := oAndThen_done h
        cases h2
        obtain ⟨l3, r3, s3, l4, h3, h4, rfl⟩ := oAndThen_done h1
        rw [hq] at h3
        have hqn : q ≠ .Start := by rintro rfl; cases hN
        have hsim := ih (q, []) (grammar q) c s s0 Lg l1 r1 l3 r3 s3 rfl hqn (lexR_ok q hN) hc
          (fun hx => hbs (by simpa [hx] using hqb)) hm hT hb1 h3
        rw [List.append_nil]
        refine sim_store_rule (r0 := r1) ho ?_ hc ?_ hb1 ?_ rfl (fun s m hs => hs.set (by simp only [tracked]; rw [show lexR q = true from hN]; rfl) c m)
        · refine hsim.bind0 fun a5 a6 a7 => ?_
          cases hr : r1 with
          | ok v c' fr =>
            rw [hr] at a5 a7
            rw [hr1 _ _ _ hr]
            cases r3 with
            | ok v' c1 fr1 => cases h4; exact sim_nil a5 (fun _ => ⟨rfl, rfl⟩) fun _ => a7 trivial
            | fail => exact a5.elim
            | panic => exact a5.elim
          | fail c' =>
            rw [hr] at a5 a7
            rw [hr2 (by rw [hr]; trivial), hr]
            cases r3 with
            | ok => exact a5.elim
            | fail => cases h4; exact sim_nil a5 (fun _ => ⟨trivial, trivial⟩) fun _ => a7 trivial
            | panic => exact a5.elim
          | panic p c' =>
            rw [hr] at a5 a7
            rw [hr2 (by rw [hr]; trivial), hr]
            cases r3 with
            | ok => exact a5.elim
            | fail => exact a5.elim
            | panic => cases h4; exact sim_nil a5 (fun _ => ⟨trivial, trivial⟩) fun h => h.elim
        · rintro rfl
          exact hbs (by simpa [bsNeed] using hqb)
        · intro m hm'
          cases hr : r1 with
          | ok v c' fr => rw [hr1 _ _ _ hr] at hm'; cases m <;> exact hm'
          | fail c' => rw [hr2 (by rw [hr]; trivial), hr] at hm'; exact hm'
          | panic p c' => rw [hr2 (by rw [hr]; trivial), hr] at hm'; exact hm'
    cases hb with
    | rule_ok hb1 =>
      exact ⟨_, rfl, key hb1 (fun _ _ _ h => by cases h; rfl) (fun h => h.elim)⟩
    | rule_stop hb1 hs =>
      exact ⟨_, rfl, key hb1 (fun _ _ _ h => by subst h; exact hs.elim) (fun _ => rfl)⟩
  | lit w ic want =>
    unfold oStep at h
    cases hb with
    | lit_ok hl =>
      simp only [step, hl, OOut.ofOut] at h
      cases h
      exact ⟨_, rfl, sim_same hm hT fun _ => rfl⟩
    | lit_fail hl =>
      simp only [step, hl, OOut.ofOut] at h
      cases h
      exact ⟨_, rfl, sim_same hm hT fun _ => trivial⟩
  | cls chars ranges ic inv want =>
    unfold oStep at h
    cases hb with
    | cls_ok hr hl =>
      simp only [step, hr, hl, OOut.ofOut, if_true] at h
      cases h
      exact ⟨_, rfl, sim_same hm hT fun _ => rfl⟩
    | cls_fail hl =>
      have : step E f (fun _ _ _ _ => .oof) ⟨(codeAt n).octx.inv, []⟩ (.cls chars ranges ic inv want) [] c =
          .done [.mark false (codeAt n).octx.inv c.loc want] (.fail c) := by
        unfold step
        dsimp only
        cases hr : c.rest with
        | nil => rfl
        | cons s t => simp [hl s t hr]
      dsimp only at h
      rw [this] at h
      cases h
      exact ⟨_, rfl, sim_same hm hT fun _ => trivial⟩
  | any =>
    unfold oStep at h
    cases hb with
    | any_ok hr =>
      simp only [step, hr, OOut.ofOut] at h
      cases h
      exact ⟨_, rfl, sim_same hm hT fun _ => rfl⟩
    | any_eof hr =>
      simp only [step, hr, OOut.ofOut] at h
      cases h
      exact ⟨_, rfl, sim_same hm hT fun _ => trivial⟩
  | not e =>
    dsimp only at hck
    unfold oStep at h
    have hcode : codeAt (n.child 0) = (!(codeAt n).1, (codeAt n).2) := codeAt_child hn 0
    obtain ⟨l1, r1, s1, l2, h1, h2, rfl⟩ := oAndThen_done h
    rw [octx_not, ← hcode] at h1
    have key : ∀ {la ra}, Big E { (codeAt n).ctx with inv := !(codeAt n).ctx.inv } (.expr e []) c la ra →
        Sim E I (lexN e) (Untr s0) Lg la ra l1 r1 s1 := by
      intro la ra hba
      rw [ctx_not, ← hcode] at hba
      exact ih _ e c s s0 Lg la ra l1 r1 s1 (nodeAt_child hn rfl) hst hN hc
        (fun hx => hbs (by simpa [hx] using hck)) hm hT hba h1
    cases hb with
    | not_ok hba =>
      refine ⟨_, rfl, (key hba).bind0 fun a5 a6 a7 => ?_⟩
      cases r1 <;> first | exact a5.elim | skip
      cases h2
      exact sim_nil ⟨rfl, rfl⟩ (fun _ => ⟨rfl, rfl⟩) fun _ => a7 trivial
    | not_fail hba =>
      refine ⟨_, rfl, (key hba).bind0 fun a5 a6 a7 => ?_⟩
      cases r1 <;> first | exact a5.elim | skip
      cases h2
      exact sim_nil rfl (fun _ => ⟨trivial, trivial⟩) fun _ => a7 trivial
    | not_panic hba =>
      refine ⟨_, rfl, (key hba).bind0 fun a5 a6 a7 => ?_⟩
      cases r1 <;> first | exact a5.elim | skip
      cases h2
      exact sim_nil a5 (fun _ => ⟨trivial, trivial⟩) fun h => h.elim
  | star e =>
    dsimp only at hck
    unfold oStep at h
    cases hb with
    | star hb => exact ⟨_, rfl, lex_rep ih false hn rfl (codeAt_child hn 0) hst hN (by simpa using hck) f [] c s Lg
        _ _ _ _ _ hc hm hT hb h⟩
  | plus e =>
    dsimp only at hck
    unfold oStep at h
    cases hb with
    | plus hb => exact ⟨_, rfl, lex_rep ih true hn rfl (codeAt_child hn 0) hst hN (by simpa using hck) f [] c s Lg
        _ _ _ _ _ hc hm hT hb h⟩
  | opt e =>
    dsimp only at hck
    unfold oStep at h
    have hcode : codeAt (n.child 0) = codeAt n := codeAt_child hn 0
    obtain ⟨l1, r1, s1, l2, h1, h2, rfl⟩ := oAndThen_done h
    rw [← hcode] at h1
    have key : ∀ {la ra}, Big E (codeAt n).ctx (.expr e []) c la ra →
        Sim E I (lexN e) (Untr s0) Lg la ra l1 r1 s1 := by
      intro la ra hba
      rw [← hcode] at hba
      exact ih _ e c s s0 Lg la ra l1 r1 s1 (nodeAt_child hn rfl) hst hN hc
        (fun hx => hbs (by simpa [hx] using hck)) hm hT hba h1
    cases hb with
    | opt_ok hba =>
      refine ⟨_, rfl, (key hba).bind0 fun a5 a6 a7 => ?_⟩
      cases r1 <;> first | exact a5.elim | skip
      cases h2
      exact sim_nil a5 (fun _ => ⟨rfl, rfl⟩) fun _ => a7 trivial
    | opt_none hba =>
      refine ⟨_, rfl, (key hba).bind0 fun a5 a6 a7 => ?_⟩
      cases r1 <;> first | exact a5.elim | skip
      cases h2
      exact sim_nil ⟨rfl, a5⟩ (fun _ => ⟨rfl, rfl⟩) fun _ => a7 trivial
    | opt_panic hba =>
      refine ⟨_, rfl, (key hba).bind0 fun a5 a6 a7 => ?_⟩
      cases r1 <;> first | exact a5.elim | skip
      cases h2
      exact sim_nil a5 (fun _ => ⟨trivial, trivial⟩) fun h => h.elim
  | recover x e hd =>
    have hN' : lexN e = true := by
      have : (lexM 0 e && lexM 0 hd) = true := hN
      simp only [Bool.and_eq_true] at this
      exact this.1
    unfold oStep at h
    cases hb with
    | recover hb =>
      cases x with
      | errUntermStr =>
        dsimp only at hck
        rw [Bool.and_eq_true] at hck
        have hn1 : n = (.QuotedValue, []) := by simpa using hck.1
        subst hn1
        have hrec : hd = .rule .ErrUntermStr := by
          have h2 := hck.2
          split at h2
          · rfl
          · cases h2
        subst hrec
        have := ih _ e c s s0 Lg _ _ _ _ _ (nodeAt_child hn rfl) hst (lexN_E hN') hc
          (fun hx => by cases hx) hm hT (by rw [codeAt_child hn 0]; exact hb) (by rw [codeAt_child hn 0]; exact h)
        rw [hN'] at this
        exact ⟨_, rfl, this⟩
      | errUntermRegex =>
        dsimp only at hck
        rw [Bool.and_eq_true] at hck
        have hn1 : n = (.RegexValue, []) := by simpa using hck.1
        subst hn1
        have hrec : hd = .rule .ErrUntermRegex := by
          have h2 := hck.2
          split at h2
          · rfl
          · cases h2
        subst hrec
        have := ih _ e c s s0 Lg _ _ _ _ _ (nodeAt_child hn rfl) hst (lexN_E hN') hc
          (fun hx => by cases hx) hm hT (by rw [codeAt_child hn 0]; exact hb) (by rw [codeAt_child hn 0]; exact h)
        rw [hN'] at this
        exact ⟨_, rfl, this⟩
  | throw x =>
    unfold oStep at h
    cases hb with
    | @throw _ _ _ _ lt _ hb =>
      refine ⟨_, rfl, ?_⟩
      have main : ∀ (m : NodeId) (hd : PExpr), nodeAt m = some hd → m.1 ≠ .Start → lexN hd = true → bsNeed m = false →
          codeAt m = codeAt n → Big E (codeAt n).ctx (.throw x [] [(x, hd)]) c lt r →
          oThrowLoop (oRun E o f) (codeAt n).octx x [] [(x, m, hd)] c s = .done l' r' s' →
          Sim E I true (Untr s0) Lg lt r l' r' s' := by
        intro m hd hmn hms hml hmb hmc hbt ht
        unfold oThrowLoop at ht
        rw [if_pos rfl] at ht
        obtain ⟨l1, r1, s1, l2, h1, h2, rfl⟩ := oAndThen_done ht
        rw [← hmc] at h1
        have key : ∀ {la ra}, Big E (codeAt n).ctx (.expr hd []) c la ra →
            Sim E I true (Untr s0) Lg la ra l1 r1 s1 := by
          intro la ra hba
          rw [← hmc] at hba
          have := ih m hd c s s0 Lg la ra l1 r1 s1 hmn hms (lexN_E hml) hc (by rw [hmb]; intro h; cases h) hm hT hba h1
          rwa [hml] at this
        cases hbt with
        | throw_skip hne _ => exact absurd rfl hne
        | throw_ok hba =>
          refine (key hba).bind0 fun a5 a6 a7 => ?_
          cases r1 <;> first | exact a5.elim | skip
          cases h2
          exact sim_nil a5 a6 fun _ => a7 trivial
        | throw_next hba hbb =>
          refine (key hba).bind fun a5 a6 a7 => ?_
          cases r1 <;> first | exact a5.elim | skip
          cases h2
          cases hbb
          exact sim_nil a5 (fun _ => ⟨trivial, trivial⟩) fun _ => a7 trivial
        | throw_panic hba =>
          refine (key hba).bind0 fun a5 a6 a7 => ?_
          cases r1 <;> first | exact a5.elim | skip
          cases h2
          exact sim_nil a5 (fun _ => ⟨trivial, trivial⟩) fun h => h.elim
      cases x with
      | errUntermStr =>
        dsimp only at hck
        have hcn : codeAt n = (false, 1) := by simpa using hck
        refine main (.QuotedValue, [1]) (.rule .ErrUntermStr) rfl (by decide) rfl (by decide) (by rw [hcn]; rfl) ?_ ?_
        · rw [hcn] at hb ⊢; exact hb
        · rw [hcn] at h ⊢; exact h
      | errUntermRegex =>
        dsimp only at hck
        have hcn : codeAt n = (false, 2) := by simpa using hck
        refine main (.RegexValue, [1]) (.rule .ErrUntermRegex) rfl (by decide) rfl (by decide) (by rw [hcn]; rfl) ?_ ?_
        · rw [hcn] at hb ⊢; exact hb
        · rw [hcn] at h ⊢; exact h
  | state st =>
    unfold oStep at h
    cases hb with
    | state =>
      cases h
      exact ⟨_, rfl, sim_same hm hT fun _ => rfl⟩

end

theorem act_state {a : Act} {c : Cursor} {l2 : List Ev} {r1 r' : ORes} {s1 s' : PState} (s3 : PState)
    (h2 : (match r1, s1 with
      | .ok _ c' fr', s' => OOut.ofOut s' (actStep E a c c' fr')
      | r, s' => .done [] r s') = .done l2 r' s') :
    s' = s1 ∧ (match r1, s3 with
      | .ok _ c' fr', s' => OOut.ofOut s' (actStep E a c c' fr')
      | r, s' => .done [] r s') = .done l2 r' s3 := by
  cases r1 with
  | ok v c' fr =>
    dsimp only at h2 ⊢
    cases ha : actStep E a c c' fr with
    | oof => rw [ha] at h2; cases h2
    | done l r => rw [ha] at h2; cases h2; exact ⟨rfl, rfl⟩
  | fail => cases h2; exact ⟨rfl, rfl⟩
  | panic => cases h2; exact ⟨rfl, rfl⟩

theorem lex_label (ho : o.memoize = true) (hx : o.maxExprs = 0) {f : Nat} (ih : ∀ g, g < f + 1 → LexOk E I o g)
    {n : NodeId} {a : Act} {x : PLabel} {e : PExpr} {c : Cursor} {s s0 : PState} {Lg l l' : List Ev} {r : Res} {r' : ORes}
    {s' : PState} (hn : nodeAt n = some (.action a (.label x e))) (hst : n.1 ≠ .Start) (he : lexE e = true)
    (hc : OnInput I c) (hbs : bsNeed n = true → AfterBs I c) (hm : MInv E I s Lg) (hT : Untr s0 s)
    (hlk : s.memo.lookup (c.loc.off, .node n) = none)
    (hb : Big E (codeAt n).ctx (.expr (.action a (.label x e)) []) c l r)
    (h : oStep E o f (oRun E o f) (codeAt n).octx n (.action a (.label x e)) [] c s = .done l' r' s') :
    Sim E I false (Untr s0) Lg l r (.tick :: l') r' (memoStore o c (.node n) r' s') := by
  unfold oStep at h
  obtain ⟨l1, r1, s1, l2, h1, h2, rfl⟩ := oAndThen_done h
  have hn1 : nodeAt (n.child 0) = some (.label x e) := nodeAt_child hn rfl
  have hn2 : nodeAt ((n.child 0).child 0) = some e := nodeAt_child hn1 rfl
  have hc1 : codeAt (n.child 0) = codeAt n := codeAt_child hn 0
  have hc2 : codeAt ((n.child 0).child 0) = codeAt n := (codeAt_child hn1 0).trans hc1
  have hlk1 : s.memo.lookup (c.loc.off, .node (n.child 0)) = none := by
    by_contra hne
    exact hm.closed _ _ _ _ _ hn hne hlk
  have hck := addrCheck_ok hn
  have hck1 := addrCheck_ok hn1
  unfold addrCheck at hck hck1
  rw [hn] at hck
  rw [hn1] at hck1
  dsimp only at hck hck1
  cases f with
  | zero => cases h1
  | succ f =>
    unfold oRun memoized at h1
    rw [ho, if_pos rfl, show getMemoized c (.node (n.child 0)) s = none from hlk1] at h1
    obtain ⟨la, ra, sa, lb, h3, h4, rfl⟩ := oAndThen_done h1
    cases h4
    obtain ⟨l3, cnt, h5, rfl⟩ := oTick_done hx h3
    unfold oStep at h5
    obtain ⟨l4, r4, s4, l5, h6, h7, rfl⟩ := oAndThen_done h5
    rw [List.append_nil] at *
    rw [← hc2] at h6
    have key : ∀ {lx rx}, Big E (codeAt n).ctx (.expr e []) c lx rx →
        Sim E I (lexN e) (Untr s0) Lg lx rx l4 r4 s4 := by
      intro lx rx hbx
      rw [← hc2] at hbx
      exact ih f (by omega) _ e c _ s0 Lg lx rx l4 r4 s4 hn2 hst he hc
        (fun hz => hbs (by
          have : bsNeed (n.child 0) = true := by simpa [hz] using hck1
          simpa [this] using hck)) (hm.cnt cnt) hT hbx h6
    have lab : ∀ lx rx, Big E (codeAt n).ctx (.expr (.label x e) []) c lx rx →
        Sim E I false (Untr s0) Lg lx rx (.tick :: (l4 ++ l5)) r1 sa := by
      intro lx rx hbx
      cases hbx with
      | label_ok hby =>
        refine Sim.tick ((key hby).bind0 fun a5 a6 a7 => ?_)
        cases r4 <;> first | exact a5.elim | skip
        cases h7
        exact sim_nil a5 (fun h => by cases h) fun _ => a7 trivial
      | label_stop hby hs =>
        refine Sim.tick ((key hby).bind0 fun a5 a6 a7 => ?_)
        cases r4 with
        | ok => exact absurd rfl (same_stop a5 hs _ _ _)
        | fail => cases h7; exact sim_nil a5 (fun h => by cases h) a7
        | panic => cases h7; exact sim_nil a5 (fun h => by cases h) a7
    have hfr1 : ∀ v c' fr, r1 = .ok v c' fr → fr = [(x, v)] := by
      rintro v c' fr rfl
      cases r4 <;> cases h7
      rfl
    obtain ⟨rfl, h2'⟩ := act_state sa h2
    obtain ⟨l0, rfl, hact⟩ := lex_act (N1 := false) (N := false) (codeAt n).ctx hb lab (by
      intro la v c' fr' v' c1 fr1 hb1 hr1 _ hv hcc
      refine ⟨?_, fun h => by cases h⟩
      rw [hfr1 _ _ _ hr1, ← hv]
      cases hb1 with
      | label_ok => rfl
      | label_stop _ hs => exact hs.elim) h2'
    rcases hact.tick with herr | ⟨a1, a2, a3, a4, a5, a6, a7⟩
    · exact .inl herr
    · refine .inr ⟨a1, a2, a3, a4, a5, (fun h => by cases h), fun hal => ?_⟩
      obtain ⟨b1, b2⟩ := a7 hal
      obtain ⟨m', hm', hs'⟩ := same_store (c := c) (k := .node n) (s := memoStore o c (.node (n.child 0)) r1 sa) ho a5 hal
      -- the label
      have hlab : ∃ lx rx, Big E (codeAt n).ctx (.expr (.label x e) []) c lx rx ∧ errorsOf lx = [] ∧ rx.alive := by
        cases hb with
        | action_ok hbx _ => exact ⟨_, _, hbx, a1, trivial⟩
        | @action_err _ _ _ _ _ lx _ _ _ _ er hbx _ =>
          have : errorsOf (lx ++ [Ev.err c.loc er]) = [] := a1
          rw [errorsOf_append] at this
          exact ⟨_, _, hbx, (List.append_eq_nil_iff.1 this).1, trivial⟩
        | action_panic hbx _ => exact hal.elim
        | action_stop hbx _ => exact ⟨_, _, hbx, a1, hal⟩
      obtain ⟨lx, rx, hbx, hex, hax⟩ := hlab
      rcases lab lx rx hbx with ⟨y, hy, _⟩ | ⟨d1, d2, d3, d4, d5, d6, d7⟩
      · rw [hex] at hy; cases hy
      obtain ⟨m1, hm1, hs1⟩ := same_store (c := c) (k := .node (n.child 0)) (s := sa) ho d5 hax
      rw [hs', hs1]
      refine ⟨b1.set2 hc hn ?_ ?_ ?_, (b2.set (untracked_label hn) c m1).set (untracked_lex hn he) c m'⟩
      · intro e' he'
        rw [hn1] at he'
        cases he'
        refine ⟨lx, rx, by rw [hc1]; exact hbx, hm1, hex, d3.trans ?_, fun h => by cases h⟩
        intro b i p w hmem
        rcases List.mem_append.1 hmem with hmem | hmem
        · exact List.mem_append_left _ hmem
        · exact List.mem_append_right _ (List.mem_cons_of_mem _ (List.mem_append_left _ hmem))
      · intro e' he'
        rw [hn] at he'
        cases he'
        exact ⟨_, r, hb, hm', a1, a3, fun h => by cases h⟩
      · intro hE
        exact hbs (by simp [bsNeed, hE])

/-- The run with the option agrees with the run without it, on what belongs to no clause. -/
theorem lex_run (ho : o.memoize = true) (hx : o.maxExprs = 0) (f : Nat) : LexOk E I o f := by
  induction f using Nat.strongRecOn with
  | ind f ih =>
    intro n e c s s0 Lg l r l' r' s' hn hst he hc hbs hm hT hb h
    cases f with
    | zero => cases h
    | succ f =>
      unfold oRun memoized at h
      rw [ho, if_pos rfl] at h
      split at h
      · rename_i m hlk
        exact sim_hit hm hc hn hb hlk h hT
      · rename_i hlk
        obtain ⟨l1, r1, s1, l2, h1, h2, rfl⟩ := oAndThen_done h
        cases h2
        obtain ⟨l3, cnt, h3, rfl⟩ := oTick_done hx h1
        rw [List.append_nil]
        rcases lexE_cases he with hN | ⟨a, x, e', rfl, he'⟩
        · obtain ⟨l0, rfl, hs⟩ := lex_step (ih f (by omega)) ho hn hst hN hc hbs (hm.cnt cnt) hT hb h3
          rw [hN]
          refine sim_store ho hs.tick hc hn ?_ hbs hb (fun _ => rfl) fun s m hs => hs.set (untracked_lex hn he) c m
          rintro x e' rfl
          cases hN
        · exact lex_label ho hx ih hn hst he' hc hbs (hm.cnt cnt) hT hlk hb h3

end Aql
