import Verif.Proofs.MemoText
/-!
The run with `Memoize` on comparisons.
-/

namespace Aql

variable {E : Env} {I : List Sym} {o : Opts}

theorem adv_le {c c' : Cursor} {t : List Sym} (h : Adv c t c') : c.loc.off ≤ c'.loc.off := by
  rw [adv_off h]; omega

theorem big_le {ctx : Ctx} {j : Job} {c c' : Cursor} {l : List Ev} {v : PV} {fr : VFrame}
    (h : Big E ctx j c l (.ok v c' fr)) : c.loc.off ≤ c'.loc.off := by
  obtain ⟨t, ht⟩ := h.ok_adv
  exact adv_le ht

theorem big_lt {ctx : Ctx} {j : Job} {c c' : Cursor} {l : List Ev} {v : PV} {fr : VFrame}
    (h : Big E ctx j c l (.ok v c' fr)) (hn : j.nul = false) : c.loc.off < c'.loc.off := by
  obtain ⟨t, ht⟩ := h.ok_adv
  have hlen := h.consumes _ _ _ rfl hn
  rw [adv_off ht]
  cases t with
  | nil => rw [ht.rest] at hlen; simp at hlen
  | cons s t =>
    have := sym_width_pos s
    simp only [List.map_cons, List.sum_cons]
    omega

theorem big_on {ctx : Ctx} {j : Job} {c c' : Cursor} {l : List Ev} {v : PV} {fr : VFrame} (hc : OnInput I c)
    (h : Big E ctx j c l (.ok v c' fr)) : OnInput I c' := by
  obtain ⟨t, ht⟩ := h.ok_adv
  exact hc.adv ht

section
variable (ho : o.memoize = true) (hx : o.maxExprs = 0) {n : NodeId} {e : PExpr} {f : Nat} {c : Cursor}
  {s s' : PState} {Lg l l' : List Ev} {r : Res} {r' : ORes} {fr : VFrame}
include ho hx

theorem simT_lex0 (hn : nodeAt n = some e) (hst : n.1 ≠ .Start)
    (hN : lexN e = true) (hcode : codeAt n = (false, 0)) (hbs : bsNeed n = false) (hc : OnInput I c)
    (hm : MInv E I s Lg) (hb : Big E ctx0 (.expr e []) c l r) (h : oRun E o f octx0 n e [] c s = .done l' r' s') :
    SimT E I (fun _ s' => Untr s s') Lg l r l' r' s' := by
  rcases lex_run ho hx f n e c s s Lg l r l' r' s' hn hst (lexN_E hN) hc (by rw [hbs]; intro h; cases h) hm untr_refl
      (by rw [hcode]; exact hb) (by rw [hcode]; exact h) with herr | ⟨a1, a2, a3, a4, a5, a6, a7⟩
  · exact .inl herr
  · refine .inr ⟨a1, a2, a3, a4, ?_, a7⟩
    obtain ⟨b1, b2⟩ := a6 hN
    cases r with
    | ok v c' fr' =>
      cases r' <;> first | exact a5.elim | skip
      obtain ⟨rfl, rfl⟩ := a5
      cases b1; cases b2
      rfl
    | fail c' =>
      cases r' <;> first | exact a5.elim | skip
      obtain rfl := a5
      rfl
    | panic p c' =>
      cases r' with
      | ok => exact a5.elim
      | fail => exact a5.elim
      | panic p' c1 =>
        cases p' with
        | none => exact a5.elim
        | some p' => obtain ⟨rfl, rfl⟩ := a5; rfl

/-- The last alternative, if it is no clause. -/
theorem simT_choice_lex {i : Nat} (hn : nodeAt (n.child i) = some e) (hst : n.1 ≠ .Start)
    (hE : lexE e = true) (hcode : codeAt (n.child i) = (false, 0)) (hbs : bsNeed (n.child i) = false) (hc : OnInput I c)
    (hm : MInv E I s Lg) (hb : Big E ctx0 (.choice fr [e]) c l r)
    (h : oChoiceLoop (oRun E o f) octx0 n fr i [e] c s = .done l' r' s') :
    SimT E I (fun _ s' => Untr s s') Lg l r l' r' s' := by
  obtain ⟨l1, r1, s1, l2, h1, h2, rfl⟩ := oAndThen_done h
  have key : ∀ {la ra}, Big E ctx0 (.expr e []) c la ra → Sim E I (lexN e) (Untr s) Lg la ra l1 r1 s1 := fun hba =>
    lex_run ho hx f _ e c s s Lg _ _ l1 r1 s1 hn hst hE hc (by rw [hbs]; intro h; cases h) hm untr_refl
      (by rw [hcode]; exact hba) (by rw [hcode]; exact h1)
  cases hb with
  | choice_ok hba =>
    rcases key hba with ⟨x, e1, e2⟩ | ⟨a1, a2, a3, a4, a5, a6, a7⟩
    · exact .inl ⟨x, e1, by rw [errorsOf_append, List.head?_append, e2]; rfl⟩
    · cases r1 <;> first | exact a5.elim | skip
      obtain ⟨rfl, rfl⟩ := a5
      cases h2
      rw [List.append_nil]
      exact .inr ⟨a1, a2, a3, a4, rfl, fun _ => a7 trivial⟩
  | choice_next hba hbb =>
    cases hbb
    rw [List.append_nil]
    rcases key hba with ⟨x, e1, e2⟩ | ⟨a1, a2, a3, a4, a5, a6, a7⟩
    · exact .inl ⟨x, e1, by rw [errorsOf_append, List.head?_append, e2]; rfl⟩
    · cases r1 <;> first | exact a5.elim | skip
      obtain rfl := a5
      cases h2
      rw [List.append_nil]
      exact .inr ⟨a1, a2, a3, a4, rfl, fun _ => a7 trivial⟩
  | choice_panic hba =>
    rcases key hba with ⟨x, e1, e2⟩ | ⟨a1, a2, a3, a4, a5, a6, a7⟩
    · exact .inl ⟨x, e1, by rw [errorsOf_append, List.head?_append, e2]; rfl⟩
    · cases r1 with
      | ok => exact a5.elim
      | fail => exact a5.elim
      | panic p' c1 =>
        cases p' with
        | none => exact a5.elim
        | some p' =>
          obtain ⟨rfl, rfl⟩ := a5
          cases h2
          rw [List.append_nil]
          exact .inr ⟨a1, a2, a3, a4, rfl, fun h => h.elim⟩

omit ho hx in
theorem big_label0 {x : PLabel} (hb : Big E ctx0 (.expr (.label x e) fr) c l r) :
    ∃ r0, Big E ctx0 (.expr (.label x e) []) c l r0 ∧ (∀ m, r.Is m → r0.Is m) := by
  cases hb with
  | label_ok h => exact ⟨_, .label_ok h, fun m h => by cases m <;> exact h⟩
  | label_stop h hs => exact ⟨_, .label_stop h hs, fun m h => h⟩

/-- A label of a clause around something that is no clause. -/
theorem simT_lab_lex {x : PLabel} (hn : nodeAt n = some (.label x e)) (hst : n.1 ≠ .Start) (heof : n.1 ≠ .EOF)
    (hpa : parentAct n = false) (hN : lexN e = true) (hcode : codeAt n = (false, 0)) (hbs : bsNeed (n.child 0) = false)
    (hlk : s.memo.lookup (c.loc.off, .node n) = none) (hc : OnInput I c) (hm : MInv E I s Lg)
    (hb : Big E ctx0 (.expr (.label x e) fr) c l r) (h : oRun E o f octx0 n (.label x e) fr c s = .done l' r' s') :
    SimT E I (fun _ s' => Chg (fun off k => off = c.loc.off ∧ k = .node n) s s') Lg l r l' r' s' := by
  obtain ⟨r0, hb0, h0⟩ := big_label0 hb
  refine simT_miss (T := fun _ s' => Untr s s') ho hx hn hcode hc hlk (notLab_parent hpa) heof
    ⟨r0, hb0, h0, fun h => by cases h⟩ h ?_ (fun m s1 hs => hs.chg.set m ⟨rfl, rfl⟩)
  intro g cnt l2 r2 s2 _ h2
  refine simT_label hb h2 fun la ra l1 r1 s1 hba h1 => ?_
  exact simT_lex0 (s := ⟨cnt, s.memo⟩) ho hx (nodeAt_child hn rfl) hst hN ((codeAt_child hn 0).trans hcode) hbs hc (hm.cnt cnt) hba h1

/-- The evaluation of a rule that is not in the table. -/
theorem simT_call {T T1 : Option Cursor → PState → Prop} {X : Rule} (hn : nodeAt n = some (.rule X))
    (hcode : codeAt n = (false, 0)) (hX : ruleCode X = (false, 0)) (hXe : X ≠ .EOF) (hnl : NotLab (.node n))
    (heof : n.1 ≠ .EOF) (hlex : lexR X = false) (hc : OnInput I c) (hlk : s.memo.lookup (c.loc.off, .node n) = none)
    (hlk' : s.memo.lookup (c.loc.off, .rule X) = none) (hb : Big E ctx0 (.expr (.rule X) []) c l r)
    (h : oRun E o f octx0 n (.rule X) [] c s = .done l' r' s')
    (body : ∀ g cnt la ra l1 r1 s1, f = g + 1 → Big E ctx0 (.expr (grammar X) []) c la ra → ra.endAt = r.endAt →
      oRun E o g octx0 (X, []) (grammar X) [] c ⟨cnt, s.memo⟩ = .done l1 r1 s1 → SimT E I T1 Lg la ra l1 r1 s1)
    (hT : ∀ m m' s1, T1 r.endAt s1 → T r.endAt (setMemoized c (.node n) m (setMemoized c (.rule X) m' s1))) :
    SimT E I T Lg l r l' r' s' := by
  have hend : ∀ la ra, Big E ctx0 (.expr (grammar X) []) c la ra → ra.endAt = r.endAt := by
    intro la ra hba
    cases hb with
    | rule_ok h => obtain ⟨_, rfl⟩ := h.det hba; rfl
    | rule_stop h _ => obtain ⟨_, rfl⟩ := h.det hba; rfl
  refine simT_miss (T := fun e s' => ∃ m s1, T1 e s1 ∧ s' = setMemoized c (.rule X) m s1) ho hx hn hcode hc hlk hnl
    heof ⟨r, hb, fun _ h => h, fun h => by rw [show lexN (.rule X) = lexR X from rfl, hlex] at h; cases h⟩ h ?_ ?_
  · intro g cnt l2 r2 s2 hg h2
    refine simT_rule (T1 := T1) ho hX hXe hc (by exact hlk') hb h2 (fun la ra l1 r1 s1 hba h1 =>
      body g cnt la ra l1 r1 s1 hg hba (hend _ _ hba) h1) ?_
    intro m s1 hs
    exact ⟨m, s1, hs, rfl⟩
  · rintro m s1 ⟨m', s2, hs, rfl⟩
    exact hT _ _ _ hs

/-- A label of a clause around the evaluation of a rule that is not in the table. -/
theorem simT_lab_call {T T1 : Option Cursor → PState → Prop} {X : Rule} {x : PLabel} (hn : nodeAt n = some (.label x (.rule X)))
    (hcode : codeAt n = (false, 0)) (hX : ruleCode X = (false, 0)) (hXe : X ≠ .EOF) (hpa : parentAct n = false)
    (heof : n.1 ≠ .EOF) (hlex : lexR X = false) (hc : OnInput I c) (hlk : s.memo.lookup (c.loc.off, .node n) = none)
    (hlk1 : s.memo.lookup (c.loc.off, .node (n.child 0)) = none)
    (hlk' : s.memo.lookup (c.loc.off, .rule X) = none) (hb : Big E ctx0 (.expr (.label x (.rule X)) fr) c l r)
    (h : oRun E o f octx0 n (.label x (.rule X)) fr c s = .done l' r' s')
    (body : ∀ g cnt la ra l1 r1 s1, g < f → Big E ctx0 (.expr (grammar X) []) c la ra → ra.endAt = r.endAt →
      oRun E o g octx0 (X, []) (grammar X) [] c ⟨cnt, s.memo⟩ = .done l1 r1 s1 → SimT E I T1 Lg la ra l1 r1 s1)
    (hT : ∀ m1 m m' s1, T1 r.endAt s1 → T r.endAt (setMemoized c (.node n) m1 (setMemoized c (.node (n.child 0)) m
      (setMemoized c (.rule X) m' s1)))) :
    SimT E I T Lg l r l' r' s' := by
  obtain ⟨r0, hb0, h0⟩ := big_label0 hb
  refine simT_miss (T := fun e s' => ∃ m m' s1, T1 e s1 ∧ s' = setMemoized c (.node (n.child 0)) m
      (setMemoized c (.rule X) m' s1)) ho hx hn hcode hc hlk (notLab_parent hpa) heof
    ⟨r0, hb0, h0, fun h => by cases h⟩ h ?_ ?_
  · intro g cnt l2 r2 s2 hg h2
    refine simT_label hb h2 fun la ra l1 r1 s1 hba h1 => ?_
    have hend : ra.endAt = r.endAt := by
      cases hb with
      | label_ok h => obtain ⟨_, rfl⟩ := h.det hba; rfl
      | label_stop h _ => obtain ⟨_, rfl⟩ := h.det hba; rfl
    have hn0 : nodeAt (n.child 0) = some (.rule X) := nodeAt_child hn rfl
    refine simT_call (T1 := T1) ho hx hn0 ((codeAt_child hn 0).trans hcode) hX hXe
      (notLab_of hn0 (by intro _ _ h; cases h)) heof hlex hc (by exact hlk1) (by exact hlk') hba h1 ?_ ?_
    · intro g' cnt' la ra l1 r1 s1 hg' hb' he' h'
      exact body g' cnt' la ra l1 r1 s1 (by omega) hb' (he'.trans hend) h'
    · intro m m' s1 hs
      exact ⟨m, m', s1, hs, rfl⟩
  · rintro m s1 ⟨m1, m', s2, hs, rfl⟩
    exact hT _ _ _ _ hs

/-- An alternative that is an action on a sequence, neither in the table. -/
theorem simT_act_seq {T : Option Cursor → PState → Prop} {a : Act} {es : List PExpr}
    (hn : nodeAt n = some (.action a (.seq es))) (hcode : codeAt n = (false, 0)) (heof : n.1 ≠ .EOF)
    (hlex : lexAll 0 es = false) (hnul : nul (.seq es) = false) (hc : OnInput I c)
    (hlk : s.memo.lookup (c.loc.off, .node n) = none) (hlk1 : s.memo.lookup (c.loc.off, .node (n.child 0)) = none)
    (hb : Big E ctx0 (.expr (.action a (.seq es)) []) c l r)
    (h : oRun E o f octx0 n (.action a (.seq es)) [] c s = .done l' r' s')
    (body : ∀ g cnt la ra l1 r1 s1, g < f → Big E ctx0 (.seq c es [] []) c la ra →
      oSeqLoop (oRun E o g) octx0 (n.child 0) c 0 es [] [] c ⟨cnt, s.memo⟩ = .done l1 r1 s1 →
      SimT E I T Lg la ra l1 r1 s1)
    (hT : ∀ e k m s1, (k = .node n ∨ k = .node (n.child 0)) → (∀ c', e = some c' → c.loc.off < c'.loc.off) → T e s1 →
      T e (setMemoized c k m s1)) : SimT E I T Lg l r l' r' s' := by
  have hlt : ∀ {e : PExpr} {l r}, nul e = false → Big E ctx0 (.expr e []) c l r → ∀ c', r.endAt = some c' →
      c.loc.off < c'.loc.off := by
    intro e l r hnul hb c' he
    cases r <;> cases he
    exact big_lt hb hnul
  have hl : lexN (.action a (.seq es)) = false := hlex
  have hl1 : lexN (.seq es) = false := hlex
  refine simT_miss (T := T) ho hx hn hcode hc hlk (notLab_of hn (by intro _ _ h; cases h)) heof
    ⟨r, hb, fun _ h => h, fun h => by rw [hl] at h; cases h⟩ h ?_
    (fun m s1 hs => hT _ _ _ _ (.inl rfl) (hlt (by exact hnul) hb) hs)
  intro g cnt l2 r2 s2 hg h2
  refine simT_action hb h2 fun la ra l1 r1 s1 hba h1 => ?_
  have hn0 : nodeAt (n.child 0) = some (.seq es) := nodeAt_child hn rfl
  refine simT_miss (T := T) ho hx hn0 ((codeAt_child hn 0).trans hcode) hc (by exact hlk1)
    (notLab_of hn0 (by intro _ _ h; cases h)) heof
    ⟨ra, hba, fun _ h => h, fun h => by rw [hl1] at h; cases h⟩ h1 ?_
    (fun m s1 hs => hT _ _ _ _ (.inr rfl) (hlt hnul hba) hs)
  intro g' cnt' l3 r3 s3 hg' h3
  cases hba with
  | seq hbb => exact ⟨_, rfl, body g' cnt' _ _ _ _ _ (by omega) hbb h3⟩

/-- A member of a sequence that is no clause. -/
theorem simT_seq_lex {T : Option Cursor → PState → Prop} {es : List PExpr} {acc : List PV} {st : Cursor} {i : Nat}
    (hb : Big E ctx0 (.seq st (e :: es) acc fr) c l r)
    (h : oSeqLoop (oRun E o f) octx0 n st i (e :: es) acc fr c s = .done l' r' s')
    (hn : nodeAt (n.child i) = some e) (hst : n.1 ≠ .Start)
    (hN : lexN e = true) (hp : plainItem e = true) (hcode : codeAt (n.child i) = (false, 0))
    (hbs : bsNeed (n.child i) = false) (hc : OnInput I c) (hm : MInv E I s Lg)
    (kok : ∀ la v c' fr' lb l1 l2 s1, Big E ctx0 (.expr e fr) c la (.ok v c' fr') → errorsOf la = [] → OnInput I c' →
      c.loc.off ≤ c'.loc.off → Untr s s1 → MInv E I s1 (Lg ++ l1) → Big E ctx0 (.seq st es (acc ++ [v]) fr') c' lb r →
      oSeqLoop (oRun E o f) octx0 n st (i + 1) es (acc ++ [v]) fr' c' s1 = .done l2 r' s' →
      SimT E I T (Lg ++ l1) lb r l2 r' s')
    (kfail : ∀ s1, Untr s s1 → T none s1) : SimT E I T Lg l r l' r' s' :=
  simT_seq (T1 := fun _ s' => Untr s s') hb h
    (fun _ _ _ _ _ hb h => simT_lex ho hx hn hst hN hp hcode hbs hc hm hb h)
    (fun _ _ _ _ _ _ _ _ hb1 he hu hm1 hb2 h2 => kok _ _ _ _ _ _ _ _ hb1 he (big_on hc hb1) (big_le hb1) hu hm1 hb2 h2)
    (fun _ _ _ hu => kfail _ hu)

/-- A label in a sequence around something that is no clause. -/
theorem simT_seq_lab {T : Option Cursor → PState → Prop} {es : List PExpr} {acc : List PV} {st : Cursor} {i : Nat} {x : PLabel}
    (hb : Big E ctx0 (.seq st (.label x e :: es) acc fr) c l r)
    (h : oSeqLoop (oRun E o f) octx0 n st i (.label x e :: es) acc fr c s = .done l' r' s')
    (hn : nodeAt (n.child i) = some (.label x e)) (hst : n.1 ≠ .Start) (heof : n.1 ≠ .EOF)
    (hpa : parentAct (n.child i) = false) (hN : lexN e = true) (hcode : codeAt (n.child i) = (false, 0))
    (hbs : bsNeed ((n.child i).child 0) = false) (hlk : s.memo.lookup (c.loc.off, .node (n.child i)) = none)
    (hc : OnInput I c) (hm : MInv E I s Lg)
    (kok : ∀ la v c' fr' lb l1 l2 s1, Big E ctx0 (.expr (.label x e) fr) c la (.ok v c' fr') → errorsOf la = [] →
      OnInput I c' → c.loc.off ≤ c'.loc.off → Chg (fun off k => off = c.loc.off ∧ k = .node (n.child i)) s s1 →
      MInv E I s1 (Lg ++ l1) → Big E ctx0 (.seq st es (acc ++ [v]) fr') c' lb r →
      oSeqLoop (oRun E o f) octx0 n st (i + 1) es (acc ++ [v]) fr' c' s1 = .done l2 r' s' →
      SimT E I T (Lg ++ l1) lb r l2 r' s')
    (kfail : ∀ s1, Chg (fun off k => off = c.loc.off ∧ k = .node (n.child i)) s s1 → T none s1) :
    SimT E I T Lg l r l' r' s' :=
  simT_seq (T1 := fun _ s' => Chg (fun off k => off = c.loc.off ∧ k = .node (n.child i)) s s') hb h
    (fun _ _ _ _ _ hb h => simT_lab_lex ho hx hn hst heof hpa hN hcode hbs hlk hc hm hb h)
    (fun _ _ _ _ _ _ _ _ hb1 he hu hm1 hb2 h2 => kok _ _ _ _ _ _ _ _ hb1 he (big_on hc hb1) (big_le hb1) hu hm1 hb2 h2)
    (fun _ _ _ hu => kfail _ hu)

end

/-! ### Lists of values -/

def ofRule (X : Rule) : MKey → Bool
  | .rule q => q == X
  | .node n => n.1 == X

section
variable (ho : o.memoize = true) (hx : o.maxExprs = 0) {f : Nat} {c : Cursor}
  {s s' : PState} {Lg l l' : List Ev} {r : Res} {r' : ORes} {fr : VFrame}
include ho hx

def vlW (c : Cursor) (e : Option Cursor) (off : Nat) (k : MKey) : Prop :=
  ofRule .ValueList k = true ∧ c.loc.off ≤ off ∧ ∀ c', e = some c' → off < c'.loc.off

def vlT (c : Cursor) (s : PState) (e : Option Cursor) (s' : PState) : Prop :=
  Chg (vlW c e) s s' ∧ (e = none → (¬ ∃ t, c.rest = .ok '(' :: t) → Chg (fun off k => ofRule .ValueList k = true ∧ off = c.loc.off) s s')

theorem vl_alt (hc : OnInput I c) (hm : MInv E I s Lg)
    (hfr : ∀ off k, ofRule .ValueList k = true → tracked k = true → c.loc.off ≤ off → s.memo.lookup (off, k) = none)
    {a : Act} {es : List PExpr} (hn : nodeAt (.ValueList, [0]) = some (.action a (.seq es)))
    (hb : Big E ctx0 (.expr (.action a (.seq es)) []) c l r)
    (h : oRun E o f octx0 (.ValueList, [0]) (.action a (.seq es)) [] c s = .done l' r' s') :
    SimT E I (vlT c s) Lg l r l' r' s' := by
  cases hn
  refine simT_act_seq (T := vlT c s) ho hx rfl rfl (by decide) rfl rfl hc (hfr _ _ rfl rfl le_rfl) (hfr _ _ rfl rfl le_rfl)
    hb h ?_ ?_
  · intro g cnt la ra l1 r1 s1 _ hb h
    have hfail : ∀ {s1}, (∃ t, c.rest = .ok '(' :: t) → Chg (vlW c none) s s1 → vlT c s none s1 :=
      fun ht h => ⟨h, fun _ hn => absurd ht hn⟩
    refine simT_seq_lex (s := ⟨cnt, s.memo⟩) ho hx hb h rfl (by decide) rfl rfl rfl rfl hc (hm.cnt _) ?_
      fun s1 hu => ⟨hu.chg, fun _ _ => hu.chg⟩
    intro la v c1 fr1 lb l1 l2 s1 hb1 _ hc1 hle1 hu1 hm1 hb h
    have hlp := (lit1_next (by decide) hb1).2
    have hlt1 := big_lt hb1 (by decide)
    refine simT_seq_lex ho hx hb h rfl (by decide) rfl rfl rfl rfl hc1 hm1 ?_
      fun s2 hu => hfail hlp (hu1.chg.trans hu.chg)
    intro la v c2 fr2 lb l1 l2 s2 hb2 _ hc2 hle2 hu2 hm2 hb h
    have hu2 : Untr s s2 := fun off k hk => (hu2 off k hk).trans (hu1 off k hk)
    refine simT_seq_lab ho hx hb h rfl (by decide) (by decide) rfl rfl rfl rfl ?_ hc2 hm2 ?_ ?_
    · rw [hu2 _ _ rfl]
      exact hfr _ _ rfl rfl (by omega)
    · intro la v c3 fr3 lb l1 l2 s3 hb3 _ hc3 hle3 hu3 hm3 hb h
      have hu3 : Chg (fun off k => off = c2.loc.off ∧ k = .node (.ValueList, [2, 0, 0])) s s3 :=
        hu2.chg.trans hu3
      refine simT_seq_lab ho hx hb h rfl (by decide) (by decide) rfl rfl rfl rfl ?_ hc3 hm3 ?_ ?_
      · rw [hu3 _ _ rfl (by rintro ⟨_, h⟩; cases h)]
        exact hfr _ _ rfl rfl (by omega)
      · intro la v c4 fr4 lb l1 l2 s4 hb4 _ hc4 hle4 hu4 hm4 hb h
        have hu4 : Chg (fun off k => ofRule .ValueList k = true ∧ (off = c2.loc.off ∨ off = c3.loc.off)) s s4 :=
          (hu3.mono fun _ _ h => ⟨by rw [h.2]; rfl, .inl h.1⟩).trans (hu4.mono fun _ _ h => ⟨by rw [h.2]; rfl, .inr h.1⟩)
        have hW : ∀ {e : Option Cursor}, (∀ c', e = some c' → c3.loc.off < c'.loc.off) → ∀ off k,
            (ofRule .ValueList k = true ∧ (off = c2.loc.off ∨ off = c3.loc.off)) → vlW c e off k := by
          intro e he off k h
          refine ⟨h.1, by omega, fun c' hc' => ?_⟩
          have := he c' hc'
          omega
        refine simT_seq_lex ho hx hb h rfl (by decide) rfl rfl rfl rfl hc4 hm4 ?_
          fun s5 hu => hfail hlp ((hu4.mono (hW (by nofun))).trans hu.chg)
        intro la v c5 fr5 lb l1 l2 s5 hb5 _ hc5 hle5 hu5 hm5 hb h
        have hu5 := hu4.trans hu5.chg
        refine simT_seq_lex ho hx hb h rfl (by decide) rfl rfl rfl rfl hc5 hm5 ?_
          fun s6 hu => hfail hlp ((hu5.mono (hW (by nofun))).trans hu.chg)
        intro la v c6 fr6 lb l1 l2 s6 hb6 _ hc6 hle6 hu6 hm6 hb h
        have hlt6 := big_lt hb6 rfl
        refine simT_seq_nil hb h hm6 ⟨(hu5.trans hu6.chg).mono (hW ?_), by nofun⟩
        intro c' hc'
        cases hc'
        omega
      · intro s4 hu4
        exact hfail hlp ((hu3.mono fun _ _ h => ⟨by rw [h.2]; rfl, by omega, by nofun⟩).trans
          (hu4.mono fun _ _ h => ⟨by rw [h.2]; rfl, by omega, by nofun⟩))
    · intro s3 hu3
      exact hfail hlp ((hu2.chg.trans hu3).mono fun _ _ h => ⟨by rw [h.2]; rfl, by omega, by nofun⟩)
  · intro e k m s1 hk hlt hs
    have hk : ofRule .ValueList k = true := by rcases hk with rfl | rfl <;> rfl
    exact ⟨hs.1.set m ⟨hk, le_rfl, hlt⟩, fun h1 h2 => (hs.2 h1 h2).set m ⟨hk, rfl⟩⟩

theorem vl_body (hc : OnInput I c) (hm : MInv E I s Lg)
    (hfr : ∀ off k, ofRule .ValueList k = true → tracked k = true → c.loc.off ≤ off → s.memo.lookup (off, k) = none)
    (hb : Big E ctx0 (.expr (grammar .ValueList) []) c l r)
    (h : oRun E o f octx0 (.ValueList, []) (grammar .ValueList) [] c s = .done l' r' s') :
    SimT E I (fun e s' => Chg (vlW c e) s s') Lg l r l' r' s' := by
  have hend : ∀ c', r.endAt = some c' → c.loc.off < c'.loc.off := by
    intro c' he
    cases r <;> cases he
    exact big_lt hb (by decide)
  refine simT_miss (T := fun e s' => Chg (vlW c e) s s') ho hx rfl rfl hc (hfr _ _ rfl rfl le_rfl)
    (notLab_of rfl (by intro _ _ h; cases h)) (by decide) ⟨r, hb, fun _ h => h, fun h => by cases h⟩ h ?_
    (fun m s1 hs => hs.set m ⟨rfl, le_rfl, hend⟩)
  intro g cnt l2 r2 s2 _ h2
  cases hb with
  | choice hb =>
  refine ⟨_, rfl, simT_choice (T1 := vlT c s) hb h2 ?_ ?_ ?_⟩
  · intro la ra l1 r1 s1 hba h1
    exact vl_alt (s := ⟨cnt, s.memo⟩) ho hx hc (hm.cnt _) hfr rfl hba h1
  · intro la v c' fr' s1 _ _ ht
    exact ht.1
  · intro la lb l1 l2 s1 hba _ ht hm1 hbb h2
    have hs := simT_choice_lex (n := (.ValueList, [])) ho hx rfl (by decide) rfl rfl rfl hc hm1 hbb h2
    by_cases hp : ∃ t, c.rest = .ok '(' :: t
    · have : ∀ {c'}, r.endAt = some c' → errorsOf lb ≠ [] := by
        intro c' he
        cases r <;> cases he
        obtain ⟨t, hp⟩ := hp
        cases hbb with
        | choice_ok hbb =>
          have hlab : ∀ {l v c' fr fr'}, Big E ctx0 (.expr (.label .value (.rule .Value)) fr) c l (.ok v c' fr') →
              errorsOf l ≠ [] := by
            intro l v c' fr fr' h
            cases h with
            | label_ok h => exact fun he => value_paren hp h he
            | label_stop _ h => exact h.elim
          cases hbb with
          | action_ok hbb _ => exact fun he => hlab hbb he
          | action_err hbb _ =>
            rw [show ∀ l : List Ev, errorsOf (.tick :: l) = errorsOf l from fun _ => rfl, errorsOf_append]
            intro h
            cases (List.append_eq_nil_iff.1 h).2
          | action_stop _ h => exact h.elim
        | choice_next _ h => cases h
      rcases hs with he | ⟨a1, a2, a3, a4, a5, a6⟩
      · exact .inl he
      · refine .inr ⟨a1, a2, a3, a4, a5, fun ha => ⟨(a6 ha).1, (ht.1.mono ?_).trans (a6 ha).2.chg⟩⟩
        intro off k h
        exact ⟨h.1, h.2.1, fun c' hc' => absurd a1 (this hc')⟩
    · refine hs.mono fun hu => ((ht.2 rfl hp).mono ?_).trans hu.chg
      rintro off k ⟨hk, rfl⟩
      exact ⟨hk, le_rfl, hend⟩

end

/-! ### Comparisons -/

theorem Fr.set {s : PState} {p : Nat} {c : Cursor} {k : MKey} (m : MRes) (h : Fr s p) (hc : c.loc.off < p) :
    Fr (setMemoized c k m s) p := by
  intro off k' hk ho
  rw [lookup_set, if_neg]
  · exact h off k' hk ho
  · intro hh
    cases hh
    omega

/-- After white space, one of these characters. -/
def Dead (K : List Char) (c : Cursor) : Prop := ∃ c1 x t, MaxTo wsSym c c1 ∧ c1.rest = .ok x :: t ∧ x ∈ K

/-- A field and white space lead to a colon here. -/
def Reach (E : Env) (c ck : Cursor) : Prop :=
  ∃ l v c1 fr, Big E ctx0 (.expr (.rule .Field) []) c l (.ok v c1 fr) ∧ MaxTo wsSym c1 ck ∧ ∃ t, ck.rest = .ok ':' :: t

/-- Behind the colon and white space. -/
def ReachV (E : Env) (c k' : Cursor) : Prop := ∃ ck, Reach E c ck ∧ MaxTo wsSym ck.next k'

theorem Reach.eq {c a b : Cursor} (h : Reach E c a) (h' : Reach E c b) : a = b := by
  obtain ⟨l, v, c1, fr, h1, h2, _⟩ := h
  obtain ⟨l', v', c1', fr', h1', h2', _⟩ := h'
  obtain ⟨_, he⟩ := h1.det h1'
  cases he
  exact h2.eq h2'

theorem MaxTo.le {p : Sym → Bool} {c a : Cursor} (h : MaxTo p c a) : c.loc.off ≤ a.loc.off := by
  obtain ⟨t, h, _⟩ := h
  exact adv_le h

theorem next_lt {c : Cursor} {x : Sym} {t : List Sym} (h : c.rest = x :: t) : c.loc.off < c.next.loc.off := by
  have ha : Adv c [x] c.next := .step h (.refl _)
  have := sym_width_pos x
  rw [adv_off ha]
  simp only [List.map_cons, List.map_nil, List.sum_cons, List.sum_nil]
  omega

theorem Reach.lt {c ck : Cursor} (h : Reach E c ck) : c.loc.off < ck.loc.off := by
  obtain ⟨l, v, c1, fr, h1, h2, _⟩ := h
  exact (big_lt h1 (by decide)).trans_le h2.le

theorem ReachV.eq {c a b : Cursor} (h : ReachV E c a) (h' : ReachV E c b) : a = b := by
  obtain ⟨ck, h1, h2⟩ := h
  obtain ⟨ck', h1', h2'⟩ := h'
  obtain rfl := h1.eq h1'
  exact h2.eq h2'

theorem ReachV.lt {c a : Cursor} (h : ReachV E c a) : c.loc.off < a.loc.off := by
  obtain ⟨ck, h1, h2⟩ := h
  obtain ⟨_, _, _, _, _, _, t, ht⟩ := id h1
  have := h1.lt
  have := next_lt ht
  have := h2.le
  omega

theorem Reach.no {c ck : Cursor} {x : Char} {t : List Sym} (h : Reach E c ck) (hx : x = '(' ∨ x = '!' ∨ x = ':') :
    c.rest ≠ .ok x :: t := by
  obtain ⟨l, v, c1, fr, h1, h2, _⟩ := h
  exact fun hr => noField hx hr h1

def cKey (p : List Nat) : MKey := .node (.Comparison, p)

def orT (c : Cursor) (s : PState) (e : Option Cursor) (s' : PState) : Prop :=
  Chg (fun off _ => c.loc.off ≤ off) s s' ∧ ∀ c', e = some c' → Fr s' c'.loc.off ∨ Dead ['A', 'O'] c'

def OrOk (E : Env) (I : List Sym) (o : Opts) (f : Nat) : Prop :=
  ∀ c s Lg l r l' r' s', OnInput I c → MInv E I s Lg → Fr s c.loc.off →
    Big E ctx0 (.expr (grammar .OrClause) []) c l r →
    oRun E o f octx0 (.OrClause, []) (grammar .OrClause) [] c s = .done l' r' s' →
    SimT E I (orT c s) Lg l r l' r' s'

def c1T (c : Cursor) (s : PState) (e : Option Cursor) (s' : PState) : Prop :=
  Chg (fun off _ => c.loc.off ≤ off) s s' ∧ (∀ c', e = some c' → Fr s' c'.loc.off) ∧
  (e = none → Chg (fun off k => (off = c.loc.off ∧ (k = cKey [0] ∨ k = cKey [0, 0])) ∨
    (c.loc.off < off ∧ ∃ t, c.rest = .ok '(' :: t)) s s')

def c2W (E : Env) (c : Cursor) (off : Nat) (k : MKey) : Prop :=
  (off = c.loc.off ∧ (k = cKey [1] ∨ k = cKey [0, 1] ∨ k = cKey [0, 0, 1])) ∨
  (k = cKey [4, 0, 1] ∧ ∃ k', ReachV E c k' ∧ off = k'.loc.off)

def c2T (E : Env) (c : Cursor) (s : PState) (e : Option Cursor) (s' : PState) : Prop :=
  Chg (c2W E c) s s' ∧ ∀ c', e = some c' → ∃ k', ReachV E c k' ∧ k'.loc.off < c'.loc.off

def c3W (E : Env) (c : Cursor) (e : Option Cursor) (off : Nat) (_ : MKey) : Prop :=
  off = c.loc.off ∨ ∃ k', ReachV E c k' ∧ k'.loc.off ≤ off ∧ ∀ c', e = some c' → off < c'.loc.off

def c3T (E : Env) (c : Cursor) (s : PState) (e : Option Cursor) (s' : PState) : Prop :=
  Chg (c3W E c e) s s' ∧ ∀ c', e = some c' → ∃ k', ReachV E c k' ∧ k'.loc.off < c'.loc.off

section
variable (ho : o.memoize = true) (hx : o.maxExprs = 0) {f : Nat} {c : Cursor}
  {s s' : PState} {Lg l l' : List Ev} {r : Res} {r' : ORes} {fr : VFrame}
include ho hx

/-- The group. -/
theorem cmp1 (hor : ∀ g < f, OrOk E I o g) (hc : OnInput I c) (hm : MInv E I s Lg)
    (hk0 : s.memo.lookup (c.loc.off, cKey [0]) = none) (hk1 : s.memo.lookup (c.loc.off, cKey [0, 0]) = none)
    (hfr : ∀ t, c.rest = .ok '(' :: t → Fr s (c.loc.off + 1))
    {a : Act} {es : List PExpr} (hn : nodeAt (.Comparison, [0]) = some (.action a (.seq es)))
    (hb : Big E ctx0 (.expr (.action a (.seq es)) []) c l r)
    (h : oRun E o f octx0 (.Comparison, [0]) (.action a (.seq es)) [] c s = .done l' r' s') :
    SimT E I (c1T c s) Lg l r l' r' s' := by
  cases hn
  refine simT_act_seq (T := c1T c s) ho hx rfl rfl (by decide) rfl rfl hc hk0 hk1 hb h ?_ ?_
  · intro g cnt la ra l1 r1 s1 hg hb h
    refine simT_seq_lex (s := ⟨cnt, s.memo⟩) ho hx hb h rfl (by decide) rfl rfl rfl rfl hc (hm.cnt _) ?_
      fun s1 hu => ⟨hu.chg, by nofun, fun _ => hu.chg⟩
    intro la v c1 fr1 lb l1 l2 s1 hb1 _ hc1 hle1 hu1 hm1 hb h
    have hlp := (lit1_next (by decide) hb1).2
    have hlt1 := big_lt hb1 (by decide)
    have hfr := hfr _ hlp.choose_spec
    have hfail : ∀ {s1}, Chg (fun off _ => c.loc.off < off) s s1 → c1T c s none s1 :=
      fun h => ⟨h.mono fun _ _ h => by omega, by nofun, fun _ => h.mono fun _ _ h => .inr ⟨h, hlp⟩⟩
    refine simT_seq_lex ho hx hb h rfl (by decide) rfl rfl rfl rfl hc1 hm1 ?_
      fun s2 hu => hfail (hu1.chg.trans hu.chg)
    intro la v c2 fr2 lb l1 l2 s2 hb2 _ hc2 hle2 hu2 hm2 hb h
    have hu2 : Untr s s2 := fun off k hk => (hu2 off k hk).trans (hu1 off k hk)
    have hfr2 : Fr s2 c2.loc.off := (hfr.mono (by omega)).untr hu2
    refine simT_seq (T1 := fun e s' => Chg (fun off _ => c2.loc.off ≤ off) s2 s' ∧ ∀ c', e = some c' →
      Fr s' c'.loc.off ∨ Dead ['A', 'O'] c') hb h ?_ ?_ ?_
    · intro la ra l1 r1 s1 hb h
      refine simT_lab_call (T1 := orT c2 s2) ho hx rfl rfl rfl (by decide) rfl (by decide) rfl hc2 (hfr2 _ _ rfl le_rfl)
        (hfr2 _ _ rfl le_rfl) (hfr2 _ _ rfl le_rfl) hb h ?_ ?_
      · intro g' cnt' la ra l1 r1 s1 hg' hb _ h
        exact hor g' (by omega) c2 ⟨cnt', s2.memo⟩ _ _ _ _ _ _ hc2 (hm2.cnt _) hfr2 hb h
      · intro m1 m m' s1 ht
        refine ⟨((ht.1.set _ le_rfl).set _ le_rfl).set _ le_rfl, fun c' he => ?_⟩
        rcases ht.2 c' he with h | h
        · have hlt : c2.loc.off < c'.loc.off := by
            cases ra <;> cases he
            exact big_lt hb rfl
          exact .inl (((h.set _ hlt).set _ hlt).set _ hlt)
        · exact .inr h
    · intro la v c3 fr3 lb l1 l2 s3 hb3 _ ht hm3 hb h
      have hc3 := big_on hc2 hb3
      have hle3 := big_le hb3
      have ht3 : Chg (fun off _ => c.loc.off < off) s s3 :=
        hu2.chg.trans (ht.1.mono fun _ _ h => by omega)
      refine simT_seq_lex ho hx hb h rfl (by decide) rfl rfl rfl rfl hc3 hm3 ?_ fun s4 hu => hfail (ht3.trans hu.chg)
      intro la v c4 fr4 lb l1 l2 s4 hb4 _ hc4 hle4 hu4 hm4 hb h
      have ht4 := ht3.trans hu4.chg
      refine simT_seq_lex ho hx hb h rfl (by decide) rfl rfl rfl rfl hc4 hm4 ?_ fun s5 hu => hfail (ht4.trans hu.chg)
      intro la v c5 fr5 lb l1 l2 s5 hb5 _ hc5 hle5 hu5 hm5 hb h
      have ht5 := ht4.trans hu5.chg
      refine simT_seq_nil hb h hm5 ⟨ht5.mono fun _ _ h => by omega, ?_, by nofun⟩
      intro c' he
      cases he
      rcases ht.2 _ rfl with hf | ⟨d, x, t, hd, hx, hk⟩
      · exact ((hf.untr hu4).untr hu5).mono (by omega)
      · obtain rfl := hd.eq (ws_to hb4)
        obtain ⟨_, t', ht'⟩ := lit1_next (by decide) hb5
        rw [hx] at ht'
        cases ht'
        exact absurd hk (by decide)
    · intro la s3 _ ht
      exact hfail (hu2.chg.trans (ht.1.mono fun _ _ h => by omega))
  · intro e k m s1 hk hlt hs
    have hk : k = cKey [0] ∨ k = cKey [0, 0] := hk
    exact ⟨hs.1.set m le_rfl, fun c' he => (hs.2.1 c' he).set m (hlt c' he), fun he => (hs.2.2 he).set m (.inl ⟨rfl, hk⟩)⟩

/-- The field and the colon of a comparison. -/
theorem cmp_prefix {T : Option Cursor → PState → Prop} {n : NodeId} {es : List PExpr} {w : Str}
    (hn : nodeAt n = some (.seq (.label .field (.rule .Field) :: .rule .ws :: .lit [':'] false w :: .rule .ws :: es)))
    (hcode : codeAt n = (false, 0)) (hn1 : n.1 = .Comparison) (hpa : parentAct (n.child 0) = false)
    (hlk : s.memo.lookup (c.loc.off, .node (n.child 0)) = none) (hc : OnInput I c) (hm : MInv E I s Lg)
    (hb : Big E ctx0 (.seq c (.label .field (.rule .Field) :: .rule .ws :: .lit [':'] false w :: .rule .ws :: es) [] []) c l r)
    (h : oSeqLoop (oRun E o f) octx0 n c 0 (.label .field (.rule .Field) :: .rule .ws :: .lit [':'] false w :: .rule .ws :: es)
      [] [] c s = .done l' r' s')
    (kok : ∀ k' acc fr lb Lg' l2 s1, ReachV E c k' → OnInput I k' → MInv E I s1 Lg' →
      Chg (fun off k => off = c.loc.off ∧ k = .node (n.child 0)) s s1 → Big E ctx0 (.seq c es acc fr) k' lb r →
      oSeqLoop (oRun E o f) octx0 n c 4 es acc fr k' s1 = .done l2 r' s' → SimT E I T Lg' lb r l2 r' s')
    (kfail : ∀ s1, Chg (fun off k => off = c.loc.off ∧ k = .node (n.child 0)) s s1 → T none s1) :
    SimT E I T Lg l r l' r' s' := by
  have hst : n.1 ≠ .Start := by rw [hn1]; decide
  have heof : n.1 ≠ .EOF := by rw [hn1]; decide
  have hcd : ∀ i, codeAt (n.child i) = (false, 0) := fun i => (codeAt_child hn i).trans hcode
  have hbs : ∀ p, bsNeed (n.1, p) = false := by
    intro p
    rw [hn1]
    rfl
  refine simT_seq_lab ho hx hb h (nodeAt_child hn rfl) hst heof hpa rfl (hcd _) (hbs _) hlk hc hm ?_ kfail
  intro la v c1 fr1 lb l1 l2 s1 hb1 _ hc1 hle1 hu1 hm1 hb h
  refine simT_seq_lex ho hx hb h (nodeAt_child hn rfl) hst rfl rfl (hcd _) (hbs _) hc1 hm1 ?_
    fun s2 hu => kfail _ (hu1.trans hu.chg)
  intro la v c2 fr2 lb l1 l2 s2 hb2 _ hc2 hle2 hu2 hm2 hb h
  refine simT_seq_lex ho hx hb h (nodeAt_child hn rfl) hst rfl rfl (hcd _) (hbs _) hc2 hm2 ?_
    fun s3 hu => kfail _ ((hu1.trans hu2.chg).trans hu.chg)
  intro la v c3 fr3 lb l1 l2 s3 hb3 _ hc3 hle3 hu3 hm3 hb h
  refine simT_seq_lex ho hx hb h (nodeAt_child hn rfl) hst rfl rfl (hcd _) (hbs _) hc3 hm3 ?_
    fun s4 hu => kfail _ (((hu1.trans hu2.chg).trans hu3.chg).trans hu.chg)
  intro la v c4 fr4 lb l1 l2 s4 hb4 _ hc4 hle4 hu4 hm4 hb h
  refine kok _ _ _ _ _ _ _ ?_ hc4 hm4 (((hu1.trans hu2.chg).trans hu3.chg).trans hu4.chg) hb h
  obtain ⟨rfl, hcol⟩ := lit1_next (by decide) hb3
  refine ⟨c2, ?_, ws_to hb4⟩
  cases hb1 with
  | label_ok hb1 => exact ⟨_, _, _, _, hb1, ws_to hb2, hcol⟩
  | label_stop _ h => exact h.elim

theorem cmp2 (hc : OnInput I c) (hm : MInv E I s Lg)
    (hk : ∀ p ∈ [[1], [0, 1], [0, 0, 1]], s.memo.lookup (c.loc.off, cKey p) = none)
    (hk4 : ∀ k', ReachV E c k' → s.memo.lookup (k'.loc.off, cKey [4, 0, 1]) = none)
    {a : Act} {es : List PExpr} (hn : nodeAt (.Comparison, [1]) = some (.action a (.seq es)))
    (hb : Big E ctx0 (.expr (.action a (.seq es)) []) c l r)
    (h : oRun E o f octx0 (.Comparison, [1]) (.action a (.seq es)) [] c s = .done l' r' s') :
    SimT E I (c2T E c s) Lg l r l' r' s' := by
  cases hn
  refine simT_act_seq (T := c2T E c s) ho hx rfl rfl (by decide) rfl rfl hc (hk [1] (by decide)) (hk [0, 1] (by decide)) hb h ?_ ?_
  · intro g cnt la ra l1 r1 s1 hg hb h
    refine cmp_prefix (s := ⟨cnt, s.memo⟩) ho hx rfl rfl rfl rfl (hk [0, 0, 1] (by decide)) hc (hm.cnt _) hb h ?_ ?_
    · intro k' acc fr lb Lg' l2 s1 hr hck hm1 hu1 hb h
      have hu1' : Chg (c2W E c) s s1 := hu1.mono fun _ _ h => .inl ⟨h.1, .inr (.inr h.2)⟩
      have hset : ∀ {s2}, Chg (fun off k => off = k'.loc.off ∧ k = cKey [4, 0, 1]) s1 s2 → Chg (c2W E c) s s2 :=
        fun h => hu1'.trans (h.mono fun _ _ h => .inr ⟨h.2, k', hr, h.1⟩)
      refine simT_seq_lab ho hx hb h rfl (by decide) (by decide) rfl rfl rfl rfl ?_ hck hm1 ?_
        fun s2 hu => ⟨hset hu, by nofun⟩
      · rw [hu1 _ _ rfl (by rintro ⟨_, h⟩; cases h)]
        exact hk4 _ hr
      · intro la v c1 fr1 lb l1 l2 s2 hb1 _ hc1 hle1 hu2 hm2 hb h
        refine simT_seq_nil hb h hm2 ⟨hset hu2, fun c' he => ?_⟩
        cases he
        exact ⟨k', hr, big_lt hb1 rfl⟩
    · intro s1 hu
      exact ⟨hu.mono fun _ _ h => .inl ⟨h.1, .inr (.inr h.2)⟩, by nofun⟩
  · intro e k m s1 hk hlt hs
    have hk : k = cKey [1] ∨ k = cKey [0, 1] := hk
    refine ⟨hs.1.set m (.inl ⟨rfl, ?_⟩), hs.2⟩
    rcases hk with h | h
    · exact .inl h
    · exact .inr (.inl h)

theorem cmp3 (hc : OnInput I c) (hm : MInv E I s Lg)
    (hk : ∀ p ∈ [[2], [0, 2], [0, 0, 2]], s.memo.lookup (c.loc.off, cKey p) = none)
    (hk4 : ∀ k', ReachV E c k' → ∀ off k, k ≠ cKey [4, 0, 1] → tracked k = true → k'.loc.off ≤ off →
      s.memo.lookup (off, k) = none)
    {a : Act} {es : List PExpr} (hn : nodeAt (.Comparison, [2]) = some (.action a (.seq es)))
    (hb : Big E ctx0 (.expr (.action a (.seq es)) []) c l r)
    (h : oRun E o f octx0 (.Comparison, [2]) (.action a (.seq es)) [] c s = .done l' r' s') :
    SimT E I (c3T E c s) Lg l r l' r' s' := by
  cases hn
  refine simT_act_seq (T := c3T E c s) ho hx rfl rfl (by decide) rfl rfl hc (hk [2] (by decide)) (hk [0, 2] (by decide)) hb h ?_ ?_
  · intro g cnt la ra l1 r1 s1 hg hb h
    refine cmp_prefix (s := ⟨cnt, s.memo⟩) ho hx rfl rfl rfl rfl (hk [0, 0, 2] (by decide)) hc (hm.cnt _) hb h ?_ ?_
    · intro k' acc fr lb Lg' l2 s1 hr hck hm1 hu1 hb h
      have hrlt := hr.lt
      have hk4 := hk4 k' hr
      have hu1' : ∀ {e}, Chg (c3W E c e) s s1 := hu1.mono fun _ _ h => .inl h.1
      refine simT_seq_lab ho hx hb h rfl (by decide) (by decide) rfl rfl rfl rfl ?_ hck hm1 ?_
        fun s2 hu => ⟨hu1'.trans (hu.mono fun _ _ h => .inr ⟨k', hr, by omega, by nofun⟩), by nofun⟩
      · rw [hu1 _ _ rfl (by rintro ⟨_, h⟩; cases h)]
        exact hk4 _ _ (by intro h; cases h) rfl le_rfl
      · intro la v c1 fr1 lb l1 l2 s2 hb1 _ hc1 hle1 hu2 hm2 hb h
        have hu2' : Chg (c3W E c none) s s2 :=
          hu1'.trans (hu2.mono fun _ _ h => .inr ⟨k', hr, by omega, by nofun⟩)
        refine simT_seq_lex ho hx hb h rfl (by decide) rfl rfl rfl rfl hc1 hm2 ?_
          fun s3 hu => ⟨hu2'.trans hu.chg, by nofun⟩
        intro la v c2 fr2 lb l1 l2 s3 hb2 _ hc2 hle2 hu3 hm3 hb h
        have hnone : ∀ off k, k ≠ cKey [4, 0, 1] → k ≠ cKey [4, 0, 2] → tracked k = true → c2.loc.off ≤ off →
            s3.memo.lookup (off, k) = none := by
          intro off k h1 h2 h3 h4
          rw [hu3 _ _ h3, hu2 _ _ h3 (fun h => h2 h.2), hu1 _ _ h3 (by rintro ⟨h, _⟩; omega)]
          exact hk4 _ _ h1 h3 (by omega)
        refine simT_seq (T1 := fun e s' => Chg (fun off _ => c2.loc.off ≤ off ∧ ∀ c', e = some c' → off < c'.loc.off) s3 s')
          hb h ?_ ?_ ?_
        · intro la ra l1 r1 s1 hb h
          have hend : ∀ c', ra.endAt = some c' → c2.loc.off < c'.loc.off := by
            intro c' he
            cases ra <;> cases he
            exact big_lt hb rfl
          refine simT_lab_call (T1 := fun e s' => Chg (vlW c2 e) s3 s') ho hx rfl rfl rfl (by decide) rfl (by decide) rfl hc2
            (hnone _ _ (by intro h; cases h) (by intro h; cases h) rfl le_rfl)
            (hnone _ _ (by intro h; cases h) (by intro h; cases h) rfl le_rfl)
            (hnone _ _ (by intro h; cases h) (by intro h; cases h) rfl le_rfl) hb h ?_ ?_
          · intro g' cnt' la ra l1 r1 s1 hg' hb _ h
            refine vl_body (s := ⟨cnt', s3.memo⟩) ho hx hc2 (hm3.cnt _) ?_ hb h
            intro off k h1 h2 h3
            exact hnone off k (by rintro rfl; cases h1) (by rintro rfl; cases h1) h2 h3
          · intro m1 m m' s1 ht
            refine Chg.set (Chg.set (Chg.set (ht.mono fun _ _ h => h.2) _ ?_) _ ?_) _ ?_ <;> exact ⟨le_rfl, hend⟩
        · intro la v c3 fr3 lb l1 l2 s4 hb3 _ ht hm4 hb h
          have hlt3 := big_lt hb3 rfl
          refine simT_seq_nil hb h hm4 ⟨?_, fun c' he => ?_⟩
          · refine Chg.trans (Chg.trans (Chg.trans hu1' (hu2.mono fun _ _ h => .inr ⟨k', hr, by omega, ?_⟩)) hu3.chg)
              (ht.mono fun _ _ h => .inr ⟨k', hr, by omega, h.2⟩)
            intro c' he
            cases he
            omega
          · cases he
            exact ⟨k', hr, by omega⟩
        · intro la s4 _ ht
          exact ⟨(hu2'.trans hu3.chg).trans (ht.mono fun _ _ h => .inr ⟨k', hr, by omega, by nofun⟩), by nofun⟩
    · intro s1 hu
      exact ⟨hu.mono fun _ _ h => .inl h.1, by nofun⟩
  · intro e k m s1 hk hlt hs
    exact ⟨hs.1.set m (.inl rfl), hs.2⟩

/-- What the table may not contain before a comparison. -/
structure CmpPre (E : Env) (s : PState) (c : Cursor) : Prop where
  own : ∀ k, ofRule .Comparison k = true → tracked k = true → s.memo.lookup (c.loc.off, k) = none
  group : ∀ t, c.rest = .ok '(' :: t → Fr s (c.loc.off + 1)
  colon : ∀ ck, Reach E c ck → Fr s (ck.loc.off + 1)

def cmpT (c : Cursor) (s : PState) (e : Option Cursor) (s' : PState) : Prop :=
  Chg (fun off _ => c.loc.off ≤ off) s s' ∧ (∀ c', e = some c' → Fr s' c'.loc.off) ∧
  (e = none → ∀ t, c.rest = .ok ':' :: t → Fr s (c.loc.off + 1) → Fr s' (c.loc.off + 1))

theorem cmp_body (hor : ∀ g < f, OrOk E I o g) (hc : OnInput I c) (hm : MInv E I s Lg) (hp : CmpPre E s c)
    (hb : Big E ctx0 (.expr (grammar .Comparison) []) c l r)
    (h : oRun E o f octx0 (.Comparison, []) (grammar .Comparison) [] c s = .done l' r' s') :
    SimT E I (cmpT c s) Lg l r l' r' s' := by
  have hend : ∀ c', r.endAt = some c' → c.loc.off < c'.loc.off := by
    intro c' he
    cases r <;> cases he
    exact big_lt hb (by decide)
  refine simT_miss (T := cmpT c s) ho hx rfl rfl hc (hp.own _ rfl rfl)
    (notLab_of rfl (by intro _ _ h; cases h)) (by decide) ⟨r, hb, fun _ h => h, fun h => by cases h⟩ h ?_
    (fun m s1 hs => ⟨hs.1.set m le_rfl, fun c' he => (hs.2.1 c' he).set m (hend c' he),
      fun he t ht hf => (hs.2.2 he t ht hf).set m (by omega)⟩)
  intro g cnt l2 r2 s2 hg h2
  cases hb with
  | choice hb =>
  refine ⟨_, rfl, simT_choice (T1 := c1T c s) hb h2 ?_ ?_ ?_⟩
  · intro la ra l1 r1 s1 hba h1
    exact cmp1 (s := ⟨cnt, s.memo⟩) ho hx (fun g' hg' => hor g' (by omega)) hc (hm.cnt _) (hp.own _ rfl rfl) (hp.own _ rfl rfl)
      hp.group rfl hba h1
  · intro la v c' fr' s1 _ _ ht
    exact ⟨ht.1, ht.2.1, by nofun⟩
  · intro la lb l1 l2 s1 _ _ ht1 hm1 hb h2
    have ht1' := ht1.2.2 rfl
    have hs1 : ∀ ck, Reach E c ck → Fr s1 (ck.loc.off + 1) := by
      intro ck hr
      refine (hp.colon ck hr).chg ht1' ?_
      rintro off k (⟨rfl, _⟩ | ⟨_, t, ht⟩)
      · have := hr.lt; omega
      · exact absurd ht (hr.no (.inl rfl))
    have hV : ∀ {s1}, (∀ ck, Reach E c ck → Fr s1 (ck.loc.off + 1)) → ∀ k', ReachV E c k' → Fr s1 k'.loc.off := by
      rintro s1 h k' ⟨ck, hr, hw⟩
      obtain ⟨_, _, _, _, _, _, t, ht⟩ := id hr
      have := next_lt ht
      have := hw.le
      exact (h ck hr).mono (by omega)
    have hown1 : ∀ k, ofRule .Comparison k = true → tracked k = true → k ≠ cKey [0] → k ≠ cKey [0, 0] →
        s1.memo.lookup (c.loc.off, k) = none := by
      intro k h1 h2 h3 h4
      rw [ht1' _ _ h2]
      · exact hp.own k h1 h2
      · rintro (⟨_, h | h⟩ | ⟨h, _⟩)
        · exact h3 h
        · exact h4 h
        · omega
    have hcol1 : ∀ t, c.rest = .ok ':' :: t → Chg (fun off _ => off = c.loc.off) s s1 := by
      intro t ht
      refine ht1'.mono ?_
      rintro off k (⟨h, _⟩ | ⟨_, t', ht'⟩)
      · exact h
      · rw [ht] at ht'; cases ht'
    refine simT_choice (T1 := c2T E c s1) hb h2 ?_ ?_ ?_
    · intro la ra l1 r1 s2 hba h1
      refine cmp2 ho hx hc hm1 ?_ (fun k' hr => hV hs1 k' hr _ _ rfl le_rfl) rfl hba h1
      intro p hp'
      simp only [List.mem_cons, List.not_mem_nil, or_false] at hp'
      rcases hp' with rfl | rfl | rfl <;> exact hown1 _ rfl rfl (by intro h; cases h) (by intro h; cases h)
    · intro la v c' fr' s2 _ _ ht2
      refine ⟨ht1.1.trans (ht2.1.mono ?_), ?_, by nofun⟩
      · rintro off k (⟨h, _⟩ | ⟨_, k', hr, h⟩)
        · omega
        · have := hr.lt; omega
      · intro c'' he
        cases he
        obtain ⟨k', hr, hlt⟩ := ht2.2 _ rfl
        refine ((hV hs1 k' hr).mono (by omega)).chg ht2.1 ?_
        rintro off k (⟨h, _⟩ | ⟨_, k2, hr2, h⟩)
        · have := hr.lt; omega
        · obtain rfl := hr.eq hr2
          omega
    · intro la lb l1 l2 s2 _ _ ht2 hm2 hb h2
      have hno4 : ∀ k', ReachV E c k' → ∀ off k, k ≠ cKey [4, 0, 1] → tracked k = true → k'.loc.off ≤ off →
          s2.memo.lookup (off, k) = none := by
        intro k' hr off k h1 h2 h3
        rw [ht2.1 _ _ h2]
        · exact hV hs1 k' hr _ _ h2 h3
        · rintro (⟨h, _⟩ | ⟨h, _⟩)
          · have := hr.lt; omega
          · exact h1 h
      refine simT_choice (T1 := c3T E c s2) hb h2 ?_ ?_ ?_
      · intro la ra l1 r1 s3 hba h1
        refine cmp3 ho hx hc hm2 ?_ hno4 rfl hba h1
        have : ∀ p ∈ [[2], [0, 2], [0, 0, 2]], tracked (cKey p) = true ∧ ¬ c2W E c c.loc.off (cKey p) := by
          intro p hp'
          simp only [List.mem_cons, List.not_mem_nil, or_false] at hp'
          rcases hp' with rfl | rfl | rfl
          all_goals
            refine ⟨rfl, ?_⟩
            rintro (⟨_, h | h | h⟩ | ⟨h, _⟩) <;> cases h
        intro p hp'
        rw [ht2.1 _ _ (this p hp').1 (this p hp').2]
        simp only [List.mem_cons, List.not_mem_nil, or_false] at hp'
        rcases hp' with rfl | rfl | rfl <;> exact hown1 _ rfl rfl (by intro h; cases h) (by intro h; cases h)
      · intro la v c' fr' s3 _ _ ht3
        refine ⟨(ht1.1.trans (ht2.1.mono ?_)).trans (ht3.1.mono ?_), ?_, by nofun⟩
        · rintro off k (⟨h, _⟩ | ⟨_, k', hr, h⟩)
          · omega
          · have := hr.lt; omega
        · rintro off k (h | ⟨k', hr, h, _⟩)
          · omega
          · have := hr.lt; omega
        · intro c'' he
          cases he
          obtain ⟨k', hr, hlt⟩ := ht3.2 _ rfl
          refine Fr.chg (Fr.chg ((hV hs1 k' hr).mono hlt.le) ht2.1 ?_) ht3.1 ?_
          · rintro off k (⟨h, _⟩ | ⟨_, k2, hr2, h⟩)
            · have := hr.lt; omega
            · obtain rfl := hr.eq hr2
              omega
          · rintro off k (h | ⟨k', hr, h, hlt⟩)
            · have := hr.lt; omega
            · exact hlt _ rfl
      · intro la lb l1 l2 s3 _ _ ht3 hm3 hb h2
        refine simT_choice_nil hb h2 hm3 ⟨(ht1.1.trans (ht2.1.mono ?_)).trans (ht3.1.mono ?_), by nofun, ?_⟩
        · rintro off k (⟨h, _⟩ | ⟨_, k', hr, h⟩)
          · omega
          · have := hr.lt; omega
        · rintro off k (h | ⟨k', hr, h, _⟩)
          · omega
          · have := hr.lt; omega
        · intro _ t ht hf
          have hno : ∀ k', ¬ ReachV E c k' := by
            rintro k' ⟨ck, hr, _⟩
            exact hr.no (.inr (.inr rfl)) ht
          refine Fr.chg (Fr.chg (Fr.chg hf (hcol1 t ht) ?_) ht2.1 ?_) ht3.1 ?_
          · intro off k h; omega
          · rintro off k (⟨h, _⟩ | ⟨_, k', hr, h⟩)
            · omega
            · exact absurd hr (hno _)
          · rintro off k (h | ⟨k', hr, h, _⟩)
            · omega
            · exact absurd hr (hno _)

end

end Aql
