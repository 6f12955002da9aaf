import Verif.Proofs.MemoCmp
/-!
The run with `Memoize` on clauses.
-/

namespace Aql

variable {E : Env} {I : List Sym} {o : Opts}

theorem Fr.pre {s : PState} {c : Cursor} (h : Fr s c.loc.off) : CmpPre E s c where
  own k _ hk := h _ _ hk le_rfl
  group _ _ := h.mono (by omega)
  colon ck hr := h.mono (by have := hr.lt; omega)

theorem CmpPre.set {s : PState} {c : Cursor} {k : MKey} (m : MRes) (h : CmpPre E s c) (hk : ofRule .Comparison k = false) :
    CmpPre E (setMemoized c k m s) c where
  own k' hk' ht := by
    rw [lookup_set, if_neg]
    · exact h.own k' hk' ht
    · intro hh
      cases hh
      rw [hk] at hk'
      cases hk'
  group t ht := (h.group t ht).set m (by omega)
  colon ck hr := (h.colon ck hr).set m (by have := hr.lt; omega)

theorem lookup_set_ne {s : PState} {c c1 : Cursor} {k k' : MKey} (m : MRes) (h : s.memo.lookup (c1.loc.off, k) ≠ none) :
    (setMemoized c k' m s).memo.lookup (c1.loc.off, k) ≠ none := by
  rw [lookup_set]
  split
  · exact Option.some_ne_none _
  · exact h

theorem Dead.mono {K K' : List Char} {c : Cursor} (h : Dead K c) (hk : ∀ x ∈ K, x ∈ K') : Dead K' c := by
  obtain ⟨c1, x, t, h1, h2, h3⟩ := h
  exact ⟨c1, x, t, h1, h2, hk x h3⟩

/-- What is known after a clause: what may have changed, and that nothing is known further on or nothing will be asked. -/
def clT (K : List Char) (c : Cursor) (s : PState) (e : Option Cursor) (s' : PState) : Prop :=
  Chg (fun off _ => c.loc.off ≤ off) s s' ∧ ∀ c', e = some c' → Fr s' c'.loc.off ∨ Dead K c'

theorem Untr.trans {s s1 s2 : PState} (h : Untr s s1) (h' : Untr s1 s2) : Untr s s2 :=
  fun off k hk => (h' off k hk).trans (h off k hk)

def ClOk (X : Rule) (K : List Char) (E : Env) (I : List Sym) (o : Opts) (f : Nat) : Prop :=
  ∀ c s Lg l r l' r' s', OnInput I c → MInv E I s Lg → Fr s c.loc.off →
    Big E ctx0 (.expr (grammar X) []) c l r →
    oRun E o f octx0 (X, []) (grammar X) [] c s = .done l' r' s' →
    SimT E I (clT K c s) Lg l r l' r' s'

section
variable (ho : o.memoize = true) (hx : o.maxExprs = 0) {f : Nat} {c : Cursor}
  {s s' : PState} {Lg l l' : List Ev} {r : Res} {r' : ORes} {fr : VFrame}
include ho hx

def n1T (E : Env) (c : Cursor) (s : PState) (e : Option Cursor) (s' : PState) : Prop :=
  Chg (fun off _ => c.loc.off ≤ off) s s' ∧ (∀ c', e = some c' → Fr s' c'.loc.off) ∧
  (e = none → CmpPre E s' c ∧ s'.memo.lookup (c.loc.off, .node (.NotClause, [1])) = none)

theorem not1 (hor : ∀ g < f, OrOk E I o g) (hc : OnInput I c) (hm : MInv E I s Lg) (hf : Fr s c.loc.off)
    {a : Act} {es : List PExpr} (hn : nodeAt (.NotClause, [0]) = some (.action a (.seq es)))
    (hb : Big E ctx0 (.expr (.action a (.seq es)) []) c l r)
    (h : oRun E o f octx0 (.NotClause, [0]) (.action a (.seq es)) [] c s = .done l' r' s') :
    SimT E I (n1T E c s) Lg l r l' r' s' := by
  cases hn
  refine simT_act_seq (T := n1T E c s) ho hx rfl rfl (by decide) rfl rfl hc (hf _ _ rfl le_rfl) (hf _ _ rfl le_rfl) hb h ?_ ?_
  · intro g cnt la ra l1 r1 s1 hg hb h
    refine simT_seq_lex (s := ⟨cnt, s.memo⟩) ho hx hb h rfl (by decide) rfl rfl rfl rfl hc (hm.cnt _) ?_
      fun s1 hu => ⟨hu.chg, by nofun, fun _ => ⟨(hf.untr hu).pre, (hf.untr hu) _ _ rfl le_rfl⟩⟩
    intro la v k fr1 lb l1 l2 s1 hb1 _ hck hle1 hu1 hm1 hb h
    have hlt1 := big_lt hb1 rfl
    have hf0 : Fr s1 c.loc.off := hf.untr hu1
    have hf1 : Fr s1 k.loc.off := hf0.mono hle1
    refine simT_seq (T1 := cmpT k s1) hb h ?_ ?_ ?_
    · intro la ra l1 r1 s2 hb h
      refine simT_lab_call (T1 := cmpT k s1) ho hx rfl rfl rfl (by decide) rfl (by decide) rfl hck (hf1 _ _ rfl le_rfl)
        (hf1 _ _ rfl le_rfl) (hf1 _ _ rfl le_rfl) hb h ?_ ?_
      · intro g' cnt' la ra l1 r1 s2 hg' hb _ h
        have hf1' : Fr ⟨cnt', s1.memo⟩ k.loc.off := hf1
        exact cmp_body (s := ⟨cnt', s1.memo⟩) ho hx (fun g2 hg2 => hor g2 (by omega)) hck (hm1.cnt _) hf1'.pre hb h
      · intro m1 m m' s2 ht
        refine ⟨((ht.1.set _ le_rfl).set _ le_rfl).set _ le_rfl, fun c' he => ?_, fun he t ht' hf => ?_⟩
        · have hlt : k.loc.off < c'.loc.off := by
            cases ra <;> cases he
            exact big_lt hb rfl
          exact (((ht.2.1 c' he).set _ hlt).set _ hlt).set _ hlt
        · have hlt : k.loc.off < k.loc.off + 1 := by omega
          exact (((ht.2.2 he t ht' hf).set _ hlt).set _ hlt).set _ hlt
    · intro la v c2 fr2 lb l1 l2 s2 hb2 _ ht hm2 hb h
      exact simT_seq_nil hb h hm2 ⟨hu1.chg.trans (ht.1.mono fun _ _ h => by omega), fun c' he => by cases he; exact ht.2.1 _ rfl,
        by nofun⟩
    · intro la s2 _ ht
      refine ⟨hu1.chg.trans (ht.1.mono fun _ _ h => by omega), by nofun, fun _ => ⟨⟨?_, ?_, ?_⟩, ?_⟩⟩
      · intro k' _ hk'
        rw [ht.1 _ _ hk' (by omega)]
        exact hf0 _ _ hk' le_rfl
      · intro t hr
        rcases not_cases hb1 with ⟨t', ht'⟩ | ⟨c3, x, u, ha, _⟩
        · rw [hr] at ht'; cases ht'
        · cases ha with
          | step h _ => rw [hr] at h; cases h
      · intro ck hr
        rcases not_cases hb1 with ⟨t', ht'⟩ | ⟨c3, x, u, ha, h3, hw, hmax⟩
        · exact absurd ht' (hr.no (.inr (.inl rfl)))
        · obtain ⟨_, _, c1, _, hfield, hmx, t, hcol⟩ := hr
          obtain rfl := field_not hfield ha h3 hw
          obtain rfl := hmx.eq hmax
          exact ht.2.2 rfl t hcol (hf1.mono (by omega))
      · rw [ht.1 _ _ rfl (by omega)]
        exact hf0 _ _ rfl le_rfl
  · intro e k m s1 hk hlt hs
    refine ⟨hs.1.set m le_rfl, fun c' he => (hs.2.1 c' he).set m (hlt c' he), fun he => ⟨(hs.2.2 he).1.set m ?_, ?_⟩⟩
    · rcases hk with rfl | rfl <;> rfl
    · rw [lookup_set, if_neg]
      · exact (hs.2.2 he).2
      · rcases hk with rfl | rfl <;> (intro h; cases h)

theorem not_body (hor : ∀ g < f, OrOk E I o g) : ClOk .NotClause [] E I o f := by
  intro c s Lg l r l' r' s' hc hm hf hb h
  have hend : ∀ c', r.endAt = some c' → c.loc.off < c'.loc.off := by
    intro c' he
    cases r <;> cases he
    exact big_lt hb (by decide)
  refine simT_miss (T := clT [] c s) ho hx rfl rfl hc (hf _ _ rfl le_rfl)
    (notLab_of rfl (by intro _ _ h; cases h)) (by decide) ⟨r, hb, fun _ h => h, fun h => by cases h⟩ h ?_
    (fun m s1 hs => ⟨hs.1.set m le_rfl, fun c' he => (hs.2 c' he).imp_left fun h => h.set m (hend c' he)⟩)
  intro g cnt l2 r2 s2 hg h2
  cases hb with
  | choice hb =>
  refine ⟨_, rfl, simT_choice (T1 := n1T E c s) hb h2 ?_ ?_ ?_⟩
  · intro la ra l1 r1 s1 hba h1
    exact not1 (s := ⟨cnt, s.memo⟩) ho hx (fun g' hg' => hor g' (by omega)) hc (hm.cnt _) hf rfl hba h1
  · intro la v c' fr' s1 _ _ ht
    exact ⟨ht.1, fun c' he => .inl (ht.2.1 c' he)⟩
  · intro la lb l1 l2 s1 _ _ ht1 hm1 hb h2
    obtain ⟨hpre, hnone⟩ := ht1.2.2 rfl
    refine simT_choice (T1 := fun e s' => Chg (fun off _ => c.loc.off ≤ off) s1 s' ∧ ∀ c', e = some c' → Fr s' c'.loc.off)
      hb h2 ?_ ?_ ?_
    · intro la ra l1 r1 s2 hba h1
      refine simT_call (T1 := cmpT c s1) ho hx rfl rfl rfl (by decide) (notLab_of rfl (by intro _ _ h; cases h)) (by decide) rfl hc
        hnone (hpre.own _ rfl rfl) hba h1 ?_ ?_
      · intro g' cnt' la ra l1 r1 s2 hg' hb _ h
        exact cmp_body (s := ⟨cnt', s1.memo⟩) ho hx (fun g2 hg2 => hor g2 (by omega)) hc (hm1.cnt _)
          ⟨hpre.own, hpre.group, hpre.colon⟩ hb h
      · intro m m' s2 ht
        refine ⟨(ht.1.set _ le_rfl).set _ le_rfl, fun c' he => ?_⟩
        have hlt : c.loc.off < c'.loc.off := by
          cases ra <;> cases he
          exact big_lt hba rfl
        exact ((ht.2.1 c' he).set _ hlt).set _ hlt
    · intro la v c' fr' s2 _ _ ht
      exact ⟨ht1.1.trans ht.1, fun c' he => .inl (ht.2 c' he)⟩
    · intro la lb l1 l2 s2 _ _ ht hm2 hb h2
      exact simT_choice_nil hb h2 hm2 ⟨ht1.1.trans ht.1, by nofun⟩

def and1T (E : Env) (c : Cursor) (s : PState) (e : Option Cursor) (s' : PState) : Prop :=
  clT ['A'] c s e s' ∧ (e = none → s'.memo.lookup (c.loc.off, .rule .NotClause) ≠ none ∧
    ∀ l v c' fr, Big E ctx0 (.expr (.rule .NotClause) []) c l (.ok v c' fr) → Fr s' c'.loc.off ∨ Dead ['A'] c')

theorem and1 (hsub : ∀ g < f, ClOk .NotClause [] E I o g) (hrec : ∀ g < f, ClOk .AndClause ['A'] E I o g)
    (hc : OnInput I c) (hm : MInv E I s Lg) (hf : Fr s c.loc.off)
    {a : Act} {es : List PExpr} (hn : nodeAt (.AndClause, [0]) = some (.action a (.seq es)))
    (hb : Big E ctx0 (.expr (.action a (.seq es)) []) c l r)
    (h : oRun E o f octx0 (.AndClause, [0]) (.action a (.seq es)) [] c s = .done l' r' s') :
    SimT E I (and1T E c s) Lg l r l' r' s' := by
  cases hn
  refine simT_act_seq (T := and1T E c s) ho hx rfl rfl (by decide) rfl rfl hc (hf _ _ rfl le_rfl) (hf _ _ rfl le_rfl) hb h ?_ ?_
  · intro g cnt la ra l1 r1 s1 hg hb h
    refine simT_seq (T1 := fun e s' => clT [] c s e s' ∧ s'.memo.lookup (c.loc.off, .rule .NotClause) ≠ none) hb h ?_ ?_ ?_
    · intro la ra l1 r1 s1 hb h
      refine simT_lab_call (s := ⟨cnt, s.memo⟩) (T1 := clT [] c s) ho hx rfl rfl rfl (by decide) rfl (by decide) rfl hc
        (hf _ _ rfl le_rfl) (hf _ _ rfl le_rfl) (hf _ _ rfl le_rfl) hb h ?_ ?_
      · intro g' cnt' la ra l1 r1 s2 hg' hb _ h
        exact hsub g' (by omega) c ⟨cnt', s.memo⟩ _ _ _ _ _ _ hc (hm.cnt _) hf hb h
      · intro m1 m m' s2 ht
        refine ⟨⟨((ht.1.set _ le_rfl).set _ le_rfl).set _ le_rfl, fun c' he => ?_⟩, ?_⟩
        · have hlt : c.loc.off < c'.loc.off := by
            cases ra <;> cases he
            exact big_lt hb rfl
          exact (ht.2 c' he).imp_left fun h => ((h.set _ hlt).set _ hlt).set _ hlt
        · refine lookup_set_ne _ (lookup_set_ne _ ?_)
          rw [lookup_set, if_pos rfl]
          exact Option.some_ne_none _
    · intro la v c1 fr1 lb l1 l2 s1 hb1 _ ht1 hm1 hb h
      obtain ⟨⟨ht1, hd⟩, hne⟩ := ht1
      have hd := hd _ rfl
      have hc1 := big_on hc hb1
      have hlt1 := big_lt hb1 rfl
      have hfail : ∀ {s2}, Chg (fun off _ => c1.loc.off ≤ off) s1 s2 → (Fr s2 c1.loc.off ∨ Dead ['A'] c1) →
          and1T E c s none s2 := by
        intro s2 hch hd'
        refine ⟨⟨ht1.trans (hch.mono fun _ _ h => by omega), by nofun⟩, fun _ => ⟨?_, ?_⟩⟩
        · rw [hch _ _ rfl (by omega)]
          exact hne
        · intro l v c' fr hy
          cases hb1 with
          | label_ok hb1 =>
            obtain ⟨_, he⟩ := hb1.det hy
            cases he
            exact hd'
          | label_stop _ h => exact h.elim
      have hfailU : ∀ {s2}, Untr s1 s2 → and1T E c s none s2 := fun hu =>
        hfail hu.chg (hd.imp (fun h => h.untr hu) fun h => h.mono (by decide))
      refine simT_seq_lex ho hx hb h rfl (by decide) rfl rfl rfl rfl hc1 hm1 ?_ fun s2 hu => hfailU hu
      intro la v c2 fr2 lb l1 l2 s2 hb2 _ hc2 hle2 hu2 hm2 hb h
      refine simT_seq_lex ho hx hb h rfl (by decide) rfl rfl rfl rfl hc2 hm2 ?_ fun s3 hu => hfailU (hu2.trans hu)
      intro la v c3 fr3 lb l1 l2 s3 hb3 _ hc3 hle3 hu3 hm3 hb h
      have hu3 := hu2.trans hu3
      have hhead : ∃ t, c2.rest = .ok 'A' :: t := by
        cases hb3 with
        | rule_ok hb3 =>
          cases lit_adv (by decide) hb3 with
          | step h _ => exact ⟨_, h⟩
        | rule_stop _ h => exact h.elim
      obtain ⟨t, hhead⟩ := hhead
      have hdead : Dead ['A'] c1 := ⟨c2, 'A', t, space_to hb2, hhead, by decide⟩
      have hfr : Fr s1 c1.loc.off := by
        rcases hd with h | ⟨d, y, t', hd, hy, hk⟩
        · exact h
        · obtain rfl := hd.eq (space_to hb2)
          rw [hhead] at hy
          cases hy
          exact absurd hk (by decide)
      refine simT_seq_lex ho hx hb h rfl (by decide) rfl rfl rfl rfl hc3 hm3 ?_ fun s4 hu => hfailU (hu3.trans hu)
      intro la v c4 fr4 lb l1 l2 s4 hb4 _ hc4 hle4 hu4 hm4 hb h
      have hu4 := hu3.trans hu4
      have hf4 : Fr s4 c4.loc.off := (hfr.mono (by omega)).untr hu4
      refine simT_seq (T1 := clT ['A'] c4 s4) hb h ?_ ?_ ?_
      · intro la ra l1 r1 s1 hb h
        refine simT_lab_call (T1 := clT ['A'] c4 s4) ho hx rfl rfl rfl (by decide) rfl (by decide) rfl hc4
          (hf4 _ _ rfl le_rfl) (hf4 _ _ rfl le_rfl) (hf4 _ _ rfl le_rfl) hb h ?_ ?_
        · intro g' cnt' la ra l1 r1 s2 hg' hb _ h
          exact hrec g' (by omega) c4 ⟨cnt', s4.memo⟩ _ _ _ _ _ _ hc4 (hm4.cnt _) hf4 hb h
        · intro m1 m m' s2 ht
          refine ⟨((ht.1.set _ le_rfl).set _ le_rfl).set _ le_rfl, fun c' he => ?_⟩
          have hlt : c4.loc.off < c'.loc.off := by
            cases ra <;> cases he
            exact big_lt hb rfl
          exact (ht.2 c' he).imp_left fun h => ((h.set _ hlt).set _ hlt).set _ hlt
      · intro la v c5 fr5 lb l1 l2 s5 hb5 _ ht5 hm5 hb h
        exact simT_seq_nil hb h hm5 ⟨⟨(ht1.trans hu4.chg).trans (ht5.1.mono fun _ _ h => by omega), ht5.2⟩, by nofun⟩
      · intro la s5 _ ht5
        exact hfail (hu4.chg.trans (ht5.1.mono fun _ _ h => by omega)) (.inr hdead)
    · intro la s1 hb1 ht1
      refine ⟨⟨ht1.1.1, by nofun⟩, fun _ => ⟨ht1.2, ?_⟩⟩
      intro l v c' fr hy
      cases hb1 with
      | label_stop hb1 _ =>
        obtain ⟨_, he⟩ := hb1.det hy
        cases he
  · intro e k m s1 hk hlt hs
    refine ⟨⟨hs.1.1.set m le_rfl, fun c' he => (hs.1.2 c' he).imp_left fun h => h.set m (hlt c' he)⟩, fun he => ⟨?_, ?_⟩⟩
    · exact lookup_set_ne _ (hs.2 he).1
    · intro l v c' fr hy
      exact ((hs.2 he).2 l v c' fr hy).imp_left fun h => h.set m (big_lt hy rfl)

theorem and_body (hsub : ∀ g < f, ClOk .NotClause [] E I o g) (hrec : ∀ g < f, ClOk .AndClause ['A'] E I o g) :
    ClOk .AndClause ['A'] E I o f := by
  intro c s Lg l r l' r' s' hc hm hf hb h
  have hend : ∀ c', r.endAt = some c' → c.loc.off < c'.loc.off := by
    intro c' he
    cases r <;> cases he
    exact big_lt hb (by decide)
  refine simT_miss (T := clT ['A'] c s) ho hx rfl rfl hc (hf _ _ rfl le_rfl)
    (notLab_of rfl (by intro _ _ h; cases h)) (by decide) ⟨r, hb, fun _ h => h, fun h => by cases h⟩ h ?_
    (fun m s1 hs => ⟨hs.1.set m le_rfl, fun c' he => (hs.2 c' he).imp_left fun h => h.set m (hend c' he)⟩)
  intro g cnt l2 r2 s2 hg h2
  cases hb with
  | choice hb =>
  refine ⟨_, rfl, simT_choice (T1 := and1T E c s) hb h2 ?_ ?_ ?_⟩
  · intro la ra l1 r1 s1 hba h1
    exact and1 (s := ⟨cnt, s.memo⟩) ho hx (fun g' hg' => hsub g' (by omega)) (fun g' hg' => hrec g' (by omega)) hc (hm.cnt _) hf
      rfl hba h1
  · intro la v c' fr' s1 _ _ ht
    exact ht.1
  · intro la lb l1 l2 s1 _ _ ht1 hm1 hb h2
    obtain ⟨hne, hall⟩ := ht1.2 rfl
    refine simT_choice (T1 := fun e s' => Chg (fun off _ => off = c.loc.off) s1 s') hb h2 ?_ ?_ ?_
    · intro la ra l1 r1 s2 hba h1
      exact (simT_again ho hx rfl rfl rfl hc (notLab_of rfl (by intro _ _ h; cases h)) (by decide) hm1 hne hba h1).mono
        fun h => h.mono fun _ _ h => h.1
    · intro la v c' fr' s2 hy _ ht
      refine ⟨ht1.1.1.trans (ht.mono fun _ _ h => by omega), fun c'' he => ?_⟩
      cases he
      have := big_lt hy rfl
      exact (hall _ _ _ _ hy).imp_left fun h => h.chg ht fun _ _ h => by omega
    · intro la lb l1 l2 s2 _ _ ht hm2 hb h2
      exact simT_choice_nil hb h2 hm2 ⟨ht1.1.1.trans (ht.mono fun _ _ h => by omega), by nofun⟩

def or1T (E : Env) (c : Cursor) (s : PState) (e : Option Cursor) (s' : PState) : Prop :=
  clT ['A', 'O'] c s e s' ∧ (e = none → s'.memo.lookup (c.loc.off, .rule .AndClause) ≠ none ∧
    ∀ l v c' fr, Big E ctx0 (.expr (.rule .AndClause) []) c l (.ok v c' fr) → Fr s' c'.loc.off ∨ Dead ['A', 'O'] c')

theorem or1 (hsub : ∀ g < f, ClOk .AndClause ['A'] E I o g) (hrec : ∀ g < f, ClOk .OrClause ['A', 'O'] E I o g)
    (hc : OnInput I c) (hm : MInv E I s Lg) (hf : Fr s c.loc.off)
    {a : Act} {es : List PExpr} (hn : nodeAt (.OrClause, [0]) = some (.action a (.seq es)))
    (hb : Big E ctx0 (.expr (.action a (.seq es)) []) c l r)
    (h : oRun E o f octx0 (.OrClause, [0]) (.action a (.seq es)) [] c s = .done l' r' s') :
    SimT E I (or1T E c s) Lg l r l' r' s' := by
  cases hn
  refine simT_act_seq (T := or1T E c s) ho hx rfl rfl (by decide) rfl rfl hc (hf _ _ rfl le_rfl) (hf _ _ rfl le_rfl) hb h ?_ ?_
  · intro g cnt la ra l1 r1 s1 hg hb h
    refine simT_seq (T1 := fun e s' => clT ['A'] c s e s' ∧ s'.memo.lookup (c.loc.off, .rule .AndClause) ≠ none) hb h ?_ ?_ ?_
    · intro la ra l1 r1 s1 hb h
      refine simT_lab_call (s := ⟨cnt, s.memo⟩) (T1 := clT ['A'] c s) ho hx rfl rfl rfl (by decide) rfl (by decide) rfl hc
        (hf _ _ rfl le_rfl) (hf _ _ rfl le_rfl) (hf _ _ rfl le_rfl) hb h ?_ ?_
      · intro g' cnt' la ra l1 r1 s2 hg' hb _ h
        exact hsub g' (by omega) c ⟨cnt', s.memo⟩ _ _ _ _ _ _ hc (hm.cnt _) hf hb h
      · intro m1 m m' s2 ht
        refine ⟨⟨((ht.1.set _ le_rfl).set _ le_rfl).set _ le_rfl, fun c' he => ?_⟩, ?_⟩
        · have hlt : c.loc.off < c'.loc.off := by
            cases ra <;> cases he
            exact big_lt hb rfl
          exact (ht.2 c' he).imp_left fun h => ((h.set _ hlt).set _ hlt).set _ hlt
        · refine lookup_set_ne _ (lookup_set_ne _ ?_)
          rw [lookup_set, if_pos rfl]
          exact Option.some_ne_none _
    · intro la v c1 fr1 lb l1 l2 s1 hb1 _ ht1 hm1 hb h
      obtain ⟨⟨ht1, hd⟩, hne⟩ := ht1
      have hd := hd _ rfl
      have hc1 := big_on hc hb1
      have hlt1 := big_lt hb1 rfl
      have hfail : ∀ {s2}, Chg (fun off _ => c1.loc.off ≤ off) s1 s2 → (Fr s2 c1.loc.off ∨ Dead ['A', 'O'] c1) →
          or1T E c s none s2 := by
        intro s2 hch hd'
        refine ⟨⟨ht1.trans (hch.mono fun _ _ h => by omega), by nofun⟩, fun _ => ⟨?_, ?_⟩⟩
        · rw [hch _ _ rfl (by omega)]
          exact hne
        · intro l v c' fr hy
          cases hb1 with
          | label_ok hb1 =>
            obtain ⟨_, he⟩ := hb1.det hy
            cases he
            exact hd'
          | label_stop _ h => exact h.elim
      have hfailU : ∀ {s2}, Untr s1 s2 → or1T E c s none s2 := fun hu =>
        hfail hu.chg (hd.imp (fun h => h.untr hu) fun h => h.mono (by decide))
      refine simT_seq_lex ho hx hb h rfl (by decide) rfl rfl rfl rfl hc1 hm1 ?_ fun s2 hu => hfailU hu
      intro la v c2 fr2 lb l1 l2 s2 hb2 _ hc2 hle2 hu2 hm2 hb h
      refine simT_seq_lex ho hx hb h rfl (by decide) rfl rfl rfl rfl hc2 hm2 ?_ fun s3 hu => hfailU (hu2.trans hu)
      intro la v c3 fr3 lb l1 l2 s3 hb3 _ hc3 hle3 hu3 hm3 hb h
      have hu3 := hu2.trans hu3
      have hhead : ∃ t, c2.rest = .ok 'O' :: t := by
        cases hb3 with
        | rule_ok hb3 =>
          cases lit_adv (by decide) hb3 with
          | step h _ => exact ⟨_, h⟩
        | rule_stop _ h => exact h.elim
      obtain ⟨t, hhead⟩ := hhead
      have hdead : Dead ['A', 'O'] c1 := ⟨c2, 'O', t, space_to hb2, hhead, by decide⟩
      have hfr : Fr s1 c1.loc.off := by
        rcases hd with h | ⟨d, y, t', hd, hy, hk⟩
        · exact h
        · obtain rfl := hd.eq (space_to hb2)
          rw [hhead] at hy
          cases hy
          exact absurd hk (by decide)
      refine simT_seq_lex ho hx hb h rfl (by decide) rfl rfl rfl rfl hc3 hm3 ?_ fun s4 hu => hfailU (hu3.trans hu)
      intro la v c4 fr4 lb l1 l2 s4 hb4 _ hc4 hle4 hu4 hm4 hb h
      have hu4 := hu3.trans hu4
      have hf4 : Fr s4 c4.loc.off := (hfr.mono (by omega)).untr hu4
      refine simT_seq (T1 := clT ['A', 'O'] c4 s4) hb h ?_ ?_ ?_
      · intro la ra l1 r1 s1 hb h
        refine simT_lab_call (T1 := clT ['A', 'O'] c4 s4) ho hx rfl rfl rfl (by decide) rfl (by decide) rfl hc4
          (hf4 _ _ rfl le_rfl) (hf4 _ _ rfl le_rfl) (hf4 _ _ rfl le_rfl) hb h ?_ ?_
        · intro g' cnt' la ra l1 r1 s2 hg' hb _ h
          exact hrec g' (by omega) c4 ⟨cnt', s4.memo⟩ _ _ _ _ _ _ hc4 (hm4.cnt _) hf4 hb h
        · intro m1 m m' s2 ht
          refine ⟨((ht.1.set _ le_rfl).set _ le_rfl).set _ le_rfl, fun c' he => ?_⟩
          have hlt : c4.loc.off < c'.loc.off := by
            cases ra <;> cases he
            exact big_lt hb rfl
          exact (ht.2 c' he).imp_left fun h => ((h.set _ hlt).set _ hlt).set _ hlt
      · intro la v c5 fr5 lb l1 l2 s5 hb5 _ ht5 hm5 hb h
        exact simT_seq_nil hb h hm5 ⟨⟨(ht1.trans hu4.chg).trans (ht5.1.mono fun _ _ h => by omega), ht5.2⟩, by nofun⟩
      · intro la s5 _ ht5
        exact hfail (hu4.chg.trans (ht5.1.mono fun _ _ h => by omega)) (.inr hdead)
    · intro la s1 hb1 ht1
      refine ⟨⟨ht1.1.1, by nofun⟩, fun _ => ⟨ht1.2, ?_⟩⟩
      intro l v c' fr hy
      cases hb1 with
      | label_stop hb1 _ =>
        obtain ⟨_, he⟩ := hb1.det hy
        cases he
  · intro e k m s1 hk hlt hs
    refine ⟨⟨hs.1.1.set m le_rfl, fun c' he => (hs.1.2 c' he).imp_left fun h => h.set m (hlt c' he)⟩, fun he => ⟨?_, ?_⟩⟩
    · exact lookup_set_ne _ (hs.2 he).1
    · intro l v c' fr hy
      exact ((hs.2 he).2 l v c' fr hy).imp_left fun h => h.set m (big_lt hy rfl)

theorem or_body (hsub : ∀ g < f, ClOk .AndClause ['A'] E I o g) (hrec : ∀ g < f, ClOk .OrClause ['A', 'O'] E I o g) :
    ClOk .OrClause ['A', 'O'] E I o f := by
  intro c s Lg l r l' r' s' hc hm hf hb h
  have hend : ∀ c', r.endAt = some c' → c.loc.off < c'.loc.off := by
    intro c' he
    cases r <;> cases he
    exact big_lt hb (by decide)
  refine simT_miss (T := clT ['A', 'O'] c s) ho hx rfl rfl hc (hf _ _ rfl le_rfl)
    (notLab_of rfl (by intro _ _ h; cases h)) (by decide) ⟨r, hb, fun _ h => h, fun h => by cases h⟩ h ?_
    (fun m s1 hs => ⟨hs.1.set m le_rfl, fun c' he => (hs.2 c' he).imp_left fun h => h.set m (hend c' he)⟩)
  intro g cnt l2 r2 s2 hg h2
  cases hb with
  | choice hb =>
  refine ⟨_, rfl, simT_choice (T1 := or1T E c s) hb h2 ?_ ?_ ?_⟩
  · intro la ra l1 r1 s1 hba h1
    exact or1 (s := ⟨cnt, s.memo⟩) ho hx (fun g' hg' => hsub g' (by omega)) (fun g' hg' => hrec g' (by omega)) hc (hm.cnt _) hf
      rfl hba h1
  · intro la v c' fr' s1 _ _ ht
    exact ht.1
  · intro la lb l1 l2 s1 _ _ ht1 hm1 hb h2
    obtain ⟨hne, hall⟩ := ht1.2 rfl
    refine simT_choice (T1 := fun e s' => Chg (fun off _ => off = c.loc.off) s1 s') hb h2 ?_ ?_ ?_
    · intro la ra l1 r1 s2 hba h1
      exact (simT_again ho hx rfl rfl rfl hc (notLab_of rfl (by intro _ _ h; cases h)) (by decide) hm1 hne hba h1).mono
        fun h => h.mono fun _ _ h => h.1
    · intro la v c' fr' s2 hy _ ht
      refine ⟨ht1.1.1.trans (ht.mono fun _ _ h => by omega), fun c'' he => ?_⟩
      cases he
      have := big_lt hy rfl
      exact (hall _ _ _ _ hy).imp_left fun h => h.chg ht fun _ _ h => by omega
    · intro la lb l1 l2 s2 _ _ ht hm2 hb h2
      exact simT_choice_nil hb h2 hm2 ⟨ht1.1.1.trans (ht.mono fun _ _ h => by omega), by nofun⟩

theorem cl_all (f : Nat) : ClOk .OrClause ['A', 'O'] E I o f ∧ ClOk .AndClause ['A'] E I o f ∧ ClOk .NotClause [] E I o f := by
  induction f using Nat.strong_induction_on with
  | _ f ih =>
    refine ⟨or_body ho hx (fun g hg => (ih g hg).2.1) (fun g hg => (ih g hg).1),
      and_body ho hx (fun g hg => (ih g hg).2.2) (fun g hg => (ih g hg).2.1), not_body ho hx fun g hg => (ih g hg).1⟩

end

end Aql
