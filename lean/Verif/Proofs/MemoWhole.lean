import Verif.Proofs.MemoEnd
import Verif.Proofs.Expected
import Verif.Proofs.Parser
/-!
The whole run with `Memoize`: the same outcome as without.
-/

namespace Aql

variable {E : Env} {I : List Sym} {o : Opts}

/-! ### The query -/

section
variable (ho : o.memoize = true) (hx : o.maxExprs = 0) {f : Nat} {c : Cursor}
  {s s' : PState} {Lg l l' : List Ev} {r : Res} {r' : ORes} {fr : VFrame}
include ho hx

theorem query_body (hc : OnInput I c) (hm : MInv E I s Lg) (hf : Fr s c.loc.off)
    (hb : Big E ctx0 (.expr (grammar .Query) []) c l r)
    (h : oRun E o f octx0 (.Query, []) (grammar .Query) [] c s = .done l' r' s') :
    SimT E I (fun _ _ => True) Lg l r l' r' s' := by
  refine simT_act_seq (T := fun _ _ => True) ho hx rfl rfl (by decide) rfl rfl hc (hf _ _ rfl le_rfl) (hf _ _ rfl le_rfl)
    hb h ?_ (fun _ _ _ _ _ _ _ => trivial)
  intro g cnt la ra l1 r1 s1 _ hb h
  refine simT_seq_lex (s := ⟨cnt, s.memo⟩) ho hx hb h rfl (by decide) rfl rfl rfl rfl hc (hm.cnt _) ?_
    fun s1 hu => trivial
  intro la v c1 fr1 lb l1 l2 s1 hb1 _ hc1 hle1 hu1 hm1 hb h
  have hf1 : Fr s1 c1.loc.off := Fr.mono (Fr.untr (s := ⟨cnt, s.memo⟩) hf hu1) hle1
  refine simT_seq (T1 := fun _ _ => True) hb h ?_ ?_ (fun _ _ _ _ => trivial)
  · intro la ra l1 r1 s2 hb h
    refine simT_lab_call (T1 := clT ['A', 'O'] c1 s1) ho hx rfl rfl rfl (by decide) rfl (by decide) rfl hc1 (hf1 _ _ rfl le_rfl)
      (hf1 _ _ rfl le_rfl) (hf1 _ _ rfl le_rfl) hb h ?_ (fun _ _ _ _ _ => trivial)
    intro g' cnt' la ra l1 r1 s2 hg' hb _ h
    exact (cl_all ho hx g').1 c1 ⟨cnt', s1.memo⟩ _ _ _ _ _ _ hc1 (hm1.cnt _) hf1 hb h
  · intro la v c2 fr2 lb l1 l2 s2 hb2 _ _ hm2 hb h
    refine simT_seq_lex ho hx hb h rfl (by decide) rfl rfl rfl rfl (big_on hc1 hb2) hm2 ?_ fun s1 hu => trivial
    intro la v c3 fr3 lb l1 l2 s3 hb3 _ hc3 hle3 hu3 hm3 hb h
    exact simT_seq_nil hb h hm3 trivial

end

/-! ### The end of the query -/

theorem eof_not (ho : o.memoize = true) (hx : o.maxExprs = 0) {f : Nat} {c : Cursor} {s s' : PState} {l l' : List Ev} {r : Res}
    {r' : ORes} (h0 : s.memo.lookup (c.loc.off, .node (.EOF, [])) = none) (h1 : s.memo.lookup (c.loc.off, .node (.EOF, [0])) = none)
    (hb : Big E ctx0 (.expr (grammar .EOF) []) c l r)
    (h : oRun E o f octx0 (.EOF, []) (grammar .EOF) [] c s = .done l' r' s') : r' = .ofRes r ∧ l' = l := by
  cases f with
  | zero => cases h
  | succ f =>
  unfold oRun memoized at h
  rw [ho, if_pos rfl, show getMemoized c (.node (.EOF, [])) s = none from h0] at h
  obtain ⟨l1, r1, s1, l2, ha, h2, rfl⟩ := oAndThen_done h
  cases h2
  obtain ⟨l3, cnt, hd, rfl⟩ := oTick_done hx ha
  simp only [grammar] at hd
  unfold oStep at hd
  obtain ⟨l4, r4, s4, l5, he, h5, rfl⟩ := oAndThen_done hd
  cases f with
  | zero => cases he
  | succ f =>
  unfold oRun memoized at he
  rw [ho, if_pos rfl, show getMemoized c (.node (NodeId.child (.EOF, []) 0)) ⟨cnt, s.memo⟩ = none from h1] at he
  obtain ⟨l6, r6, s6, l7, hg, h7, rfl⟩ := oAndThen_done he
  cases h7
  obtain ⟨l8, cnt', hi, rfl⟩ := oTick_done hx hg
  cases hb with
  | not_ok hb =>
    cases hb with
    | any_eof hr =>
      simp only [oStep, step, hr, OOut.ofOut] at hi
      cases hi
      cases h5
      exact ⟨rfl, rfl⟩
  | not_fail hb =>
    cases hb with
    | any_ok hr =>
      simp only [oStep, step, hr, OOut.ofOut] at hi
      cases hi
      cases h5
      exact ⟨rfl, by simp⟩
  | not_panic hb => cases hb

theorem memo_eof_run (ho : o.memoize = true) (hx : o.maxExprs = 0) {f : Nat} {c : Cursor} {n : NodeId} {s s' : PState}
    {Lg l l' : List Ev} {r : Res} {r' : ORes} (hn : nodeAt n = some (.rule .EOF)) (hcode : codeAt n = (false, 0))
    (hc : OnInput I c) (hm : MInv E I s Lg) (hbs : ¬ AfterBs I c) (hb : Big E ctx0 (.expr (.rule .EOF) []) c l r)
    (h : oRun E o f octx0 n (.rule .EOF) [] c s = .done l' r' s') :
    r' = .ofRes r ∧ (l' = l ∨ (l' = [] ∧ errorsOf l = [] ∧ SubLog l Lg)) := by
  have hno : ∀ k, eofKey k = true → s.memo.lookup (c.loc.off, k) = none := by
    intro k hk
    by_contra hne
    exact hbs (hm.back _ k hk hne c hc rfl)
  have hb1 : ∃ l1 r1, l = .tick :: l1 ∧ Big E ctx0 (.expr (grammar .EOF) []) c l1 r1 ∧
      ((∃ v c' fr1, r1 = .ok v c' fr1 ∧ r = .ok v c' []) ∨ (r1.stops ∧ r = r1)) := by
    cases hb with
    | rule_ok hbx => exact ⟨_, _, rfl, hbx, .inl ⟨_, _, _, rfl, rfl⟩⟩
    | rule_stop hbx hs => exact ⟨_, _, rfl, hbx, .inr ⟨hs, rfl⟩⟩
  obtain ⟨l1, r1, rfl, hb1, hr⟩ := hb1
  cases f with
  | zero => cases h
  | succ f =>
  unfold oRun memoized at h
  cases hnk : s.memo.lookup (c.loc.off, .node n) with
  | some m =>
    rw [ho, if_pos rfl, show getMemoized c (.node n) s = some m from hnk] at h
    obtain ⟨lx, rx, hbx, hx1, hx2, hx3, hx4⟩ := hm.sound _ _ _ hnk c hc rfl _ hn
    rw [hcode] at hbx
    obtain ⟨rfl, rfl⟩ := hb.det hbx
    obtain ⟨rfl, rfl, rfl⟩ := is_ofRes (r := r) hx1 h (by
      rcases hr with ⟨v, c', fr1, rfl, rfl⟩ | ⟨hs, rfl⟩
      · exact .inl ⟨_, _, _, rfl, rfl⟩
      · exact .inr ⟨hs, rfl⟩)
    exact ⟨rfl, .inr ⟨rfl, hx2, hx3⟩⟩
  | none =>
    rw [ho, if_pos rfl, show getMemoized c (.node n) s = none from hnk] at h
    obtain ⟨l2, r2, s2, l3, ha, h3, rfl⟩ := oAndThen_done h
    cases h3
    obtain ⟨l4, cnt, hd, rfl⟩ := oTick_done hx ha
    unfold oStep oParseRule memoized at hd
    dsimp only at hd
    rw [ho, if_pos rfl, show getMemoized c (.rule .EOF) ⟨cnt, s.memo⟩ = none from hno _ rfl] at hd
    obtain ⟨l5, r5, s5, l6, he, h6, rfl⟩ := oAndThen_done hd
    cases h6
    obtain ⟨l7, r7, s7, l8, hg, h8, rfl⟩ := oAndThen_done he
    obtain ⟨rfl, rfl⟩ := eof_not (s := ⟨cnt, s.memo⟩) ho hx (hno _ rfl) (hno _ rfl) hb1 hg
    rcases hr with ⟨v, c', fr1, rfl, rfl⟩ | ⟨hs, rfl⟩
    · cases h8
      exact ⟨rfl, .inl (by simp)⟩
    · cases r with
      | ok => exact hs.elim
      | fail => cases h8; exact ⟨rfl, .inl (by simp)⟩
      | panic => cases h8; exact ⟨rfl, .inl (by simp)⟩

/-! ### The start rule -/

/-- The two runs agree. -/
def SimF (l : List Ev) (r : Res) (l' : List Ev) (r' : ORes) : Prop :=
  (∃ x, (errorsOf l).head? = some x ∧ (errorsOf l').head? = some x) ∨
  (errorsOf l = [] ∧ errorsOf l' = [] ∧ SubLog l l' ∧ l'.Sublist l ∧ r' = .ofRes r)

theorem SimT.simF {T : Option Cursor → PState → Prop} {l l' : List Ev} {r : Res} {r' : ORes} {s' : PState}
    (h : SimT E I T [] l r l' r' s') : SimF l r l' r' := by
  rcases h with h | ⟨h1, h2, h3, h4, h5, _⟩
  · exact .inl h
  · exact .inr ⟨h1, h2, h3, h4, h5⟩

theorem SimF.tick {l l' : List Ev} {r : Res} {r' : ORes} (h : SimF l r l' r') : SimF (.tick :: l) r (.tick :: l') r' := by
  rcases h with ⟨x, hx, hx'⟩ | ⟨h1, h2, h3, h4, h5⟩
  · exact .inl ⟨x, hx, hx'⟩
  · refine .inr ⟨h1, h2, ?_, ?_, h5⟩
    · intro b i p w h
      simp only [List.mem_cons, reduceCtorEq, false_or] at h ⊢
      exact h3 _ _ _ _ h
    · exact h4.cons_cons _

theorem errs_head_append {l l2 : List Ev} {x : Loc × RecErr} (h : (errorsOf l).head? = some x) :
    (errorsOf (l ++ l2)).head? = some x := by
  rw [errorsOf_append, List.head?_append, h]; rfl

theorem minv_nil {cnt : Nat} : MInv E I ⟨cnt, []⟩ [] where
  sound off k m h := by cases h
  closed off n a x e hn h := absurd rfl h
  back off k hk h := absurd rfl h

theorem eof_seq (ho : o.memoize = true) (hx : o.maxExprs = 0) {f : Nat} {st c : Cursor} {acc : List PV} {fr : VFrame} {s s' : PState}
    {Lg l l' : List Ev} {r : Res} {r' : ORes} (hc : OnInput I c) (hm : MInv E I s Lg) (hbs : ¬ AfterBs I c)
    (hb : Big E ctx0 (.seq st [.rule .EOF] acc fr) c l r)
    (h : oSeqLoop (oRun E o f) octx0 (.Start, [0]) st 1 [.rule .EOF] acc fr c s = .done l' r' s') :
    r' = .ofRes r ∧ (l' = l ∨ (l' = [] ∧ errorsOf l = [] ∧ SubLog l Lg)) := by
  obtain ⟨l1, r1, s1, l2, h1, h2, rfl⟩ := oAndThen_done h
  have key : ∀ {la ra}, Big E ctx0 (.expr (.rule .EOF) fr) c la ra →
      r1 = .ofRes ra ∧ (l1 = la ∨ (l1 = [] ∧ errorsOf la = [] ∧ SubLog la Lg)) := by
    intro la ra hb
    obtain ⟨r0, hb0, rfl⟩ := big_framed rfl hb
    rw [oRun_framed rfl] at h1
    cases hr : oRun E o f octx0 (NodeId.child (.Start, [0]) 1) (.rule .EOF) [] c s with
    | oof => rw [hr] at h1; cases h1
    | done l3 r3 s3 =>
      rw [hr] at h1
      cases h1
      obtain ⟨rfl, hl⟩ := memo_eof_run ho hx (n := NodeId.child (.Start, [0]) 1) rfl rfl hc hm hbs hb0 hr
      refine ⟨?_, hl⟩
      cases r0 <;> rfl
  cases hb with
  | seq_cons hba hbb =>
    obtain ⟨rfl, hl⟩ := key hba
    cases hbb
    cases h2
    refine ⟨rfl, ?_⟩
    simpa using hl
  | seq_fail hba =>
    obtain ⟨rfl, hl⟩ := key hba
    cases h2
    refine ⟨rfl, ?_⟩
    simpa using hl
  | seq_panic hba =>
    obtain ⟨rfl, hl⟩ := key hba
    cases h2
    refine ⟨rfl, ?_⟩
    simpa using hl

theorem start_seq (ho : o.memoize = true) (hx : o.maxExprs = 0) {f cnt : Nat} {c : Cursor} {s' : PState} {l l' : List Ev} {r : Res}
    {r' : ORes} (hc : OnInput I c)
    (hb : Big E ctx0 (.seq c [.label .query (.rule .Query), .rule .EOF] [] []) c l r)
    (h : oSeqLoop (oRun E o f) octx0 (.Start, [0]) c 0 [.label .query (.rule .Query), .rule .EOF] [] [] c ⟨cnt, []⟩ = .done l' r' s') :
    SimF l r l' r' := by
  obtain ⟨l1, r1, s1, l2, h1, h2, rfl⟩ := oAndThen_done h
  have key : ∀ {la ra}, Big E ctx0 (.expr (.label .query (.rule .Query)) []) c la ra →
      SimT E I (fun _ _ => True) [] la ra l1 r1 s1 := by
    intro la ra hb
    refine simT_lab_call (T1 := fun _ _ => True) ho hx rfl rfl rfl (by decide) rfl (by decide) rfl hc rfl rfl rfl hb h1 ?_
      (fun _ _ _ _ _ => trivial)
    intro g' cnt' la ra l1 r1 s2 hg' hb _ h
    exact query_body ho hx hc minv_nil (fun _ _ _ _ => rfl) hb h
  cases hb with
  | seq_cons hba hbb =>
    rcases key hba with ⟨x, hx1, hx2⟩ | ⟨a1, a2, a3, a4, rfl, a6⟩
    · exact .inl ⟨x, errs_head_append hx1, errs_head_append hx2⟩
    · obtain ⟨hm1, -⟩ := a6 trivial
      have hc1 := big_on hc hba
      have hbs : ∀ {v c1 fr1 la}, Big E ctx0 (.expr (.label .query (.rule .Query)) []) c la (.ok v c1 fr1) → errorsOf la = [] →
          ¬ AfterBs I c1 := by
        intro v c1 fr1 la hba a1
        cases hba with
        | label_ok hq => exact query_end hc hq a1
        | label_stop _ h => exact h.elim
      obtain ⟨rfl, rfl | ⟨rfl, hl, hsub⟩⟩ := eof_seq ho hx hc1 hm1 (hbs hba a1) hbb h2
      · cases he : (errorsOf l2).head? with
        | some x =>
          refine .inl ⟨x, ?_, ?_⟩
          · rw [errorsOf_append, a1, List.nil_append, he]
          · rw [errorsOf_append, a2, List.nil_append, he]
        | none =>
          rw [List.head?_eq_none_iff] at he
          refine .inr ⟨by rw [errorsOf_append, a1, he]; rfl, by rw [errorsOf_append, a2, he]; rfl, ?_, ?_, rfl⟩
          · intro b i p w hmk
            rcases List.mem_append.1 hmk with hmk | hmk
            · exact List.mem_append_left _ (a3 _ _ _ _ hmk)
            · exact List.mem_append_right _ hmk
          · exact a4.append (List.Sublist.refl _)
      · rw [List.append_nil]
        refine .inr ⟨by rw [errorsOf_append, a1, hl]; rfl, a2, ?_, ?_, rfl⟩
        · intro b i p w hmk
          rcases List.mem_append.1 hmk with hmk | hmk
          · exact a3 _ _ _ _ hmk
          · exact hsub _ _ _ _ hmk
        · exact a4.trans (List.sublist_append_left _ _)
  | seq_fail hba =>
    rcases key hba with ⟨x, hx1, hx2⟩ | ⟨a1, a2, a3, a4, rfl, a6⟩
    · exact .inl ⟨x, hx1, errs_head_append hx2⟩
    · cases h2
      rw [List.append_nil]
      exact .inr ⟨a1, a2, a3, a4, rfl⟩
  | seq_panic hba =>
    rcases key hba with ⟨x, hx1, hx2⟩ | ⟨a1, a2, a3, a4, rfl, a6⟩
    · exact .inl ⟨x, hx1, errs_head_append hx2⟩
    · cases h2
      rw [List.append_nil]
      exact .inr ⟨a1, a2, a3, a4, rfl⟩

theorem start_run (ho : o.memoize = true) (hx : o.maxExprs = 0) {f : Nat} {c : Cursor} {s' : PState} {l l' : List Ev} {r : Res}
    {r' : ORes} (hc : OnInput I c) (hb : Big E ctx0 (.expr (grammar .Start) []) c l r)
    (h : oRun E o f octx0 (.Start, []) (grammar .Start) [] c ⟨0, []⟩ = .done l' r' s') : SimF l r l' r' := by
  cases f with
  | zero => cases h
  | succ f =>
  unfold oRun memoized at h
  rw [ho, if_pos rfl, show getMemoized c (.node (.Start, [])) ⟨0, []⟩ = none from rfl] at h
  obtain ⟨l1, r1, s1, l2, ha, h2, rfl⟩ := oAndThen_done h
  cases h2
  rw [List.append_nil]
  obtain ⟨l3, cnt, hd, rfl⟩ := oTick_done hx ha
  simp only [grammar] at hd hb
  unfold oStep at hd
  obtain ⟨l4, r4, s4, l5, he, h5, rfl⟩ := oAndThen_done hd
  have key : ∀ {la ra}, Big E ctx0 (.expr (.seq [.label .query (.rule .Query), .rule .EOF]) []) c la ra → SimF la ra l4 r4 := by
    intro la ra hb
    cases f with
    | zero => cases he
    | succ f =>
    unfold oRun memoized at he
    rw [ho, if_pos rfl, show getMemoized c (.node (NodeId.child (.Start, []) 0)) ⟨cnt, []⟩ = none from rfl] at he
    obtain ⟨l6, r6, s6, l7, hg, h7, rfl⟩ := oAndThen_done he
    cases h7
    rw [List.append_nil]
    obtain ⟨l8, cnt', hi, rfl⟩ := oTick_done hx hg
    unfold oStep at hi
    cases hb with
    | seq hb => exact (start_seq ho hx hc hb hi).tick
  have fin : ∀ {la ra rz lz}, Big E ctx0 (.expr (.seq [.label .query (.rule .Query), .rule .EOF]) []) c la ra →
      (r4 = .ofRes ra → r' = .ofRes rz ∧ l5 = lz ∧ ∀ b i p w, Ev.mark b i p w ∉ lz) → SimF (.tick :: (la ++ lz)) rz (.tick :: (l4 ++ l5)) r' := by
    intro la ra rz lz hb hk
    refine SimF.tick ?_
    rcases key hb with ⟨x, hx1, hx2⟩ | ⟨a1, a2, a3, a4, hr⟩
    · exact .inl ⟨x, errs_head_append hx1, errs_head_append hx2⟩
    · obtain ⟨rfl, rfl, hno⟩ := hk hr
      cases hz : (errorsOf l5).head? with
      | some x =>
        refine .inl ⟨x, ?_, ?_⟩
        · rw [errorsOf_append, a1, List.nil_append, hz]
        · rw [errorsOf_append, a2, List.nil_append, hz]
      | none =>
        rw [List.head?_eq_none_iff] at hz
        refine .inr ⟨by rw [errorsOf_append, a1, hz]; rfl, by rw [errorsOf_append, a2, hz]; rfl, ?_, ?_, rfl⟩
        · intro b i p w hmk
          rcases List.mem_append.1 hmk with hmk | hmk
          · exact List.mem_append_left _ (a3 _ _ _ _ hmk)
          · exact absurd hmk (hno _ _ _ _)
        · exact a4.append (List.Sublist.refl _)
  cases hb with
  | action_ok hbx hact =>
    rw [← List.append_nil (List.cons _ _)]
    refine fin hbx fun hr => ?_
    subst hr
    simp only [ORes.ofRes, actStep, hact, OOut.ofOut] at h5
    cases h5
    exact ⟨rfl, rfl, fun _ _ _ _ h => by cases h⟩
  | action_err hbx hact =>
    refine fin hbx fun hr => ?_
    subst hr
    simp only [ORes.ofRes, actStep, hact, OOut.ofOut] at h5
    cases h5
    exact ⟨rfl, rfl, by simp⟩
  | action_panic hbx hact =>
    rw [← List.append_nil (List.cons _ _)]
    refine fin hbx fun hr => ?_
    subst hr
    simp only [ORes.ofRes, actStep, hact, OOut.ofOut] at h5
    cases h5
    exact ⟨rfl, rfl, fun _ _ _ _ h => by cases h⟩
  | action_stop hbx hs =>
    rw [← List.append_nil (List.cons _ _)]
    refine fin hbx fun hr => ?_
    subst hr
    cases r with
    | ok => exact hs.elim
    | fail => cases h5; exact ⟨rfl, rfl, fun _ _ _ _ h => by cases h⟩
    | panic => cases h5; exact ⟨rfl, rfl, fun _ _ _ _ h => by cases h⟩

/-! ### The outcome -/

theorem furthest_zero (log : List Ev) : (furthest log).1.off = 0 → (furthest log).1 = ⟨1, 1, 0⟩ := by
  induction log using List.reverseRecOn with
  | nil => intro _; rfl
  | append_singleton log ev ih =>
    have hf : furthest (log ++ [ev]) = failAt (furthest log) ev := by
      unfold furthest
      rw [List.foldl_append]
      rfl
    rw [hf]
    unfold failAt
    split
    · split
      · split
        · exact ih
        · dsimp only
          split
          · intro h; dsimp only at h; omega
          · exact ih
      · exact ih
    · exact ih

theorem furthest_same {L L' : List Ev} (h : SubLog L L') (h' : SubLog L' L)
    (hl : ∀ b i p w, Ev.mark b i p w ∈ L → LocFrom (.init I) p) :
    (furthest L).1 = (furthest L').1 ∧ ∀ x, x ∈ (furthest L).2 ↔ x ∈ (furthest L').2 := by
  obtain ⟨a1, a2, _, a4⟩ := furthest_spec L
  obtain ⟨b1, b2, _, b4⟩ := furthest_spec L'
  have hoff : (furthest L).1.off = (furthest L').1.off := by
    refine Nat.le_antisymm ?_ ?_
    · rcases a4 with h0 | ⟨b, w, hm⟩
      · rw [h0]; exact Nat.zero_le _
      · exact b1 _ _ _ (h _ _ _ _ hm)
    · rcases b4 with h0 | ⟨b, w, hm⟩
      · rw [h0]; exact Nat.zero_le _
      · exact a1 _ _ _ (h' _ _ _ _ hm)
  constructor
  · by_cases hz : (furthest L).1.off = 0
    · rw [furthest_zero L hz, furthest_zero L' (hoff ▸ hz)]
    · rcases a4 with h0 | ⟨b, w, hm⟩
      · rw [h0] at hz; exact absurd rfl hz
      · rcases b4 with h0 | ⟨b', w', hm'⟩
        · rw [hoff, h0] at hz; exact absurd rfl hz
        · obtain ⟨t, c, hc, e⟩ := hl _ _ _ _ hm
          obtain ⟨t', c', hc', e'⟩ := hl _ _ _ _ (h' _ _ _ _ hm')
          have : c = c' := OnInput.inj ⟨_, hc⟩ ⟨_, hc'⟩ (by rw [e, e']; exact hoff)
          rw [← e, ← e', this]
  · intro x
    rw [a2, b2, hoff]
    constructor
    · rintro ⟨b, p, w, hm, r⟩; exact ⟨b, p, w, h _ _ _ _ hm, r⟩
    · rintro ⟨b, p, w, hm, r⟩; exact ⟨b, p, w, h' _ _ _ _ hm, r⟩

theorem strLe_antisymm {v w : Str} (h : strLe v w = true) (h' : strLe w v = true) : v = w := by
  induction v generalizing w with
  | nil => cases w with
    | nil => rfl
    | cons => cases h'
  | cons x v ih =>
    cases w with
    | nil => cases h
    | cons y w =>
      unfold strLe at h h'
      by_cases hxy : x = y
      · subst hxy
        rw [if_pos rfl] at h h'
        rw [ih h h']
      · rw [if_neg hxy, decide_eq_true_eq] at h
        rw [if_neg (Ne.symm hxy), decide_eq_true_eq] at h'
        exact absurd h' (UInt32.lt_asymm h)

theorem expectedOf_same {ws ws' : List Str} (h : ∀ x, x ∈ ws ↔ x ∈ ws') : expectedOf ws = expectedOf ws' := by
  unfold expectedOf
  dsimp only
  congr 1
  · refine List.Perm.eq_of_pairwise (le := fun a b => strLe a b = true) (fun a b _ _ h h' => strLe_antisymm h h') ?_ ?_ ?_
    · exact @List.pairwise_insertionSort _ (fun a b => strLe a b = true) _ ⟨fun a b => by
        have := strLe_total a b; rwa [Bool.or_eq_true] at this⟩ ⟨fun _ _ _ => strLe_trans⟩ _
    · exact @List.pairwise_insertionSort _ (fun a b => strLe a b = true) _ ⟨fun a b => by
        have := strLe_total a b; rwa [Bool.or_eq_true] at this⟩ ⟨fun _ _ _ => strLe_trans⟩ _
    · refine (List.perm_insertionSort _ _).trans (List.Perm.trans ?_ (List.perm_insertionSort _ _).symm)
      rw [List.perm_ext_iff_of_nodup (List.nodup_dedup _) (List.nodup_dedup _)]
      intro a
      simp only [List.mem_dedup, List.mem_filter, h]
  · simp only [h]

theorem oFinish_head {L L' : List Ev} {r : Res} {r' : ORes} {x : Loc × RecErr} (h : (errorsOf L).head? = some x)
    (h' : (errorsOf L').head? = some x) : oFinish L' r' = .out (finish L r) := by
  cases hl : errorsOf L with
  | nil => rw [hl] at h; cases h
  | cons a as =>
    cases hl' : errorsOf L' with
    | nil => rw [hl'] at h'; cases h'
    | cons b bs =>
      rw [hl] at h
      rw [hl'] at h'
      cases h
      cases h'
      have hf : finish L r = .error x.1 x.2 := by unfold finish; rw [hl]
      rw [hf]
      unfold oFinish
      cases r' with
      | ok => simp only [finish, hl']
      | fail => simp only [finish, hl']
      | panic p => cases p <;> simp only [finish, hl']

theorem finish_same {L L' : List Ev} {r : Res} (h1 : errorsOf L = []) (h2 : errorsOf L' = []) (h : SubLog L L')
    (h' : SubLog L' L) (hl : ∀ b i p w, Ev.mark b i p w ∈ L → LocFrom (.init I) p) : finish L r = finish L' r := by
  obtain ⟨ha, hb⟩ := furthest_same h h' hl
  unfold finish
  rw [h1, h2]
  cases r with
  | ok => rfl
  | panic => rfl
  | fail =>
    dsimp only
    rw [ha, expectedOf_same hb]

theorem subLog_append (P : List Ev) {l l' : List Ev} (h : SubLog l l') : SubLog (P ++ l) (P ++ l') := by
  intro b i p w hm
  rcases List.mem_append.1 hm with hm | hm
  · exact List.mem_append_left _ hm
  · exact List.mem_append_right _ (h _ _ _ _ hm)

theorem mark_encErr {c : Cursor} {b i : Bool} {p : Loc} {w : Str} : Ev.mark b i p w ∉ encErr c := by
  unfold encErr
  split <;> simp

/-- The run with `Memoize` and without a limit, and the run without options. -/
theorem memo_runs (input : List Sym) : ∃ l r l5 r5 r' s, Big E ⟨false, []⟩ (.expr (grammar .Start) []) (.init input) l r ∧
    runStart E input = .done (encErr (.init input) ++ l) r ∧
    parse E input = some (finish (encErr (.init input) ++ l) r) ∧
    oRunStart E ⟨0, true⟩ input = .done (encErr (.init input) ++ l5) r' s ∧ SimF l r l5 r5 ∧
    ((∃ v c fr, r5 = .ok v c fr ∧ r' = .ok v c []) ∨ r' = r5) := by
  obtain ⟨l, r, hb, hp0, hp⟩ := parse_big (E := E) input
  obtain ⟨log, r', s, hr, -, -, -⟩ := memo_start (E := E) (o := ⟨0, true⟩) rfl input
  have hr0 := hr
  unfold oRunStart at hr
  obtain ⟨l1, r1, s1, l2, h1, h2, rfl⟩ := oAndThen_done hr
  cases h1
  unfold oParseRule memoized at h2
  rw [if_pos rfl, show getMemoized (.init input) (.rule .Start) ⟨0, []⟩ = none from rfl] at h2
  obtain ⟨l3, r3, s3, l4, h3, h4, rfl⟩ := oAndThen_done h2
  cases h4
  obtain ⟨l5, r5, s5, l6, h5, h6, rfl⟩ := oAndThen_done h3
  have hs := start_run (o := ⟨0, true⟩) rfl rfl (I := input) ⟨[], .refl _⟩ hb h5
  have hl6 : l6 = [] := by cases r5 <;> cases h6 <;> rfl
  subst hl6
  simp only [List.append_nil] at hr0
  refine ⟨l, r, l5, r5, r', _, hb, hp0, hp, hr0, hs, ?_⟩
  cases r5 with
  | ok => cases h6; exact .inl ⟨_, _, _, rfl, rfl⟩
  | fail => cases h6; exact .inr rfl
  | panic => cases h6; exact .inr rfl

/-- With `Memoize` and without a limit, the outcome is that without options. -/
theorem memo_same (input : List Sym) : oParse E ⟨0, true⟩ input = (parse E input).map .out := by
  obtain ⟨l, r, l5, r5, r', s, hb, -, hp, hr0, hs, h6⟩ := memo_runs (E := E) input
  unfold oParse
  rw [hr0, hp]
  simp only [Option.map, Option.some.injEq]
  cases he : (errorsOf (encErr (.init input))).head? with
  | some y => exact oFinish_head (errs_head_append he) (errs_head_append he)
  | none =>
    rw [List.head?_eq_none_iff] at he
    rcases hs with ⟨x, hx1, hx2⟩ | ⟨a1, a2, a3, a4, rfl⟩
    · exact oFinish_head (x := x) (by rw [errorsOf_append, he]; exact hx1) (by rw [errorsOf_append, he]; exact hx2)
    · have hfin : finish (encErr (.init input) ++ l) r = finish (encErr (.init input) ++ l5) r := by
        refine finish_same (I := input) (by rw [errorsOf_append, he, a1]; rfl) (by rw [errorsOf_append, he, a2]; rfl)
          (subLog_append _ a3) (subLog_append _ fun _ _ _ _ h => a4.subset h) ?_
        intro b i p w hm
        rcases List.mem_append.1 hm with hm | hm
        · exact absurd hm mark_encErr
        · exact hb.inv.1 _ hm
      rw [hfin, ← oFinish_bare]
      rcases h6 with ⟨v, c, fr, hv, rfl⟩ | rfl
      · cases r <;> cases hv
        rfl
      · cases r with
        | ok => simp only [ORes.ofRes, Res.bare, oFinish]; unfold finish; split <;> simp_all
        | fail => rfl
        | panic => rfl

/-- Without recorded errors, the run with `Memoize` evaluates no more. -/
theorem memo_no_more {input : List Sym} {log log' : List Ev} {r : Res} {r' : ORes} {s : PState}
    (h : runStart E input = .done log r) (h' : oRunStart E ⟨0, true⟩ input = .done log' r' s) (he : errorsOf log = []) :
    log'.Sublist log := by
  obtain ⟨l, r, l5, r5, r', s, -, hp, -, hr0, hs, -⟩ := memo_runs (E := E) input
  rw [h] at hp
  rw [h'] at hr0
  cases hp
  cases hr0
  rcases hs with ⟨x, hx, -⟩ | ⟨-, -, -, a4, -⟩
  · rw [errorsOf_append, List.append_eq_nil_iff] at he
    rw [he.2] at hx
    cases hx
  · exact (List.Sublist.refl _).append a4

end Aql
