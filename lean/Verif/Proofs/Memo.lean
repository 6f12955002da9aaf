import Verif.Proofs.MemoNodes
import Verif.Proofs.Furthest
import Verif.Proofs.CostFlat
import Mathlib.Data.List.ProdSigma
import Mathlib.Data.List.Perm.Subperm
/-!
With `Memoize` an expression is evaluated at most once at each offset.
-/

namespace Aql

variable {E : Env} {I : List Sym} {L : Nat}

/-! ### Cursors of an input -/

/-- The cursor is reached from the start of the input. -/
def OnInput (I : List Sym) (c : Cursor) : Prop := ∃ t, Adv (.init I) t c

theorem OnInput.adv {c c' : Cursor} {t : List Sym} (h : OnInput I c) (ha : Adv c t c') : OnInput I c' := by
  obtain ⟨u, hu⟩ := h
  exact ⟨u ++ t, hu.trans ha⟩

theorem sym_width_pos (s : Sym) : 1 ≤ s.width := by
  cases s with
  | ok c => exact c.utf8Size_pos
  | bad b => exact Nat.le_refl 1

theorem adv_off {c c' : Cursor} {t : List Sym} (h : Adv c t c') : c'.loc.off = c.loc.off + (t.map Sym.width).sum := by
  induction h with
  | refl => simp
  | step hr _ ih =>
    rw [ih, next_off_eq hr]
    simp; omega

/-- Cursors of one input with the same offset are the same. -/
theorem adv_off_inj {c a b : Cursor} {t u : List Sym} (h : Adv c t a) (h' : Adv c u b)
    (ho : a.loc.off = b.loc.off) : a = b := by
  induction h generalizing u with
  | refl c =>
    cases h' with
    | refl => rfl
    | step hr h' =>
      have := adv_off h'
      rw [next_off_eq hr] at this
      rename_i s _ _
      have := sym_width_pos s
      omega
  | @step c s u t c' hr h ih =>
    cases h' with
    | refl =>
      have := adv_off h
      rw [next_off_eq hr] at this
      have := sym_width_pos s
      omega
    | step hr' h' => exact ih h' ho

theorem OnInput.inj {a b : Cursor} (h : OnInput I a) (h' : OnInput I b) (ho : a.loc.off = b.loc.off) : a = b := by
  obtain ⟨t, ht⟩ := h
  obtain ⟨u, hu⟩ := h'
  exact adv_off_inj ht hu ho

/-! ### The table -/

/-- Is there an entry for the expression? -/
def Has (s : PState) (x : Nat × NodeId) : Prop := s.memo.lookup (x.1, .node x.2) ≠ none

/-- May the expression or rule match without reading? -/
def MKey.nul : MKey → Bool
  | .rule r => rnul r
  | .node n => ((nodeAt n).map Aql.nul).getD true

/-- What every result satisfies: a failure is where it began, a success further on, strictly if the
expression is not nullable. -/
def MRes.Fine (nu : Bool) (c : Cursor) : MRes → Prop
  | .ok _ c' => (∃ t, Adv c t c') ∧ (nu = false → c'.rest.length < c.rest.length)
  | .fail c' => c' = c

/-- The same for results of runs. -/
def ORes.Fine (nu : Bool) (c : Cursor) : ORes → Prop
  | .ok _ c' _ => (∃ t, Adv c t c') ∧ (nu = false → c'.rest.length < c.rest.length)
  | .fail c' => c' = c
  | .panic _ _ => True

/-- All entries of the table satisfy it. -/
def MemoOk (I : List Sym) (s : PState) : Prop :=
  ∀ off k r, s.memo.lookup (off, k) = some r → ∀ c, OnInput I c → c.loc.off = off → r.Fine k.nul c

/-- The evaluation of this expression at this offset is below a bound. -/
def MemoBelow (I : List Sym) (B : Nat) (x : Nat × NodeId) : Prop :=
  ∃ c e, OnInput I c ∧ c.loc.off = x.1 ∧ nodeAt x.2 = some e ∧ c.rest.length * 40 + cost e < B

def ORes.dead : ORes → Bool
  | .panic _ _ => true
  | _ => false

/-- The evaluations of a part of the run: they are different, below a bound, not in the table before, and
in the table afterwards if there is no panic. -/
def Grow (I : List Sym) (B : Nat) (s : PState) (log : List Ev) (dead : Bool) (s' : PState) : Prop :=
  ∃ V : List (Nat × NodeId), V.Nodup ∧ (∀ x ∈ V, MemoBelow I B x ∧ ¬ Has s x) ∧ ticks log = V.length ∧
    (∀ x, Has s' x → Has s x ∨ x ∈ V) ∧ (dead = false → ∀ x, Has s x ∨ x ∈ V → Has s' x)

/-- The count grows with the evaluations, and the parser gives up only at the maximum. -/
def Counted (L : Nat) (s : PState) (log : List Ev) (r : ORes) (s' : PState) : Prop :=
  (∀ c, r = .panic none c → L ≤ s.cnt + ticks log) ∧ s'.cnt ≤ s.cnt + ticks log + 1 ∧
    (r.dead = false → s'.cnt ≤ s.cnt + ticks log)

/-- A part of the run ends, with such evaluations, a table that is fine, and a result that satisfies `Q`. -/
def Post (L : Nat) (I : List Sym) (B : Nat) (s : PState) (o : OOut) (Q : ORes → Prop) : Prop :=
  ∃ log r s', o = .done log r s' ∧ Grow I B s log r.dead s' ∧ MemoOk I s' ∧ Q r ∧ Counted L s log r s'

theorem grow_refl {B : Nat} {s : PState} {log : List Ev} {d : Bool} (h : ticks log = 0) : Grow I B s log d s :=
  ⟨[], .nil, by simp, by rw [h]; rfl, fun x hx => .inl hx, fun _ x hx => by simpa using hx⟩

theorem Grow.trans {B : Nat} {s s1 s2 : PState} {l l' : List Ev} {d : Bool} (h : Grow I B s l false s1)
    (h' : Grow I B s1 l' d s2) : Grow I B s (l ++ l') d s2 := by
  obtain ⟨V, hn, hb, ht, h1, h2⟩ := h
  obtain ⟨W, hn', hb', ht', h1', h2'⟩ := h'
  refine ⟨V ++ W, ?_, ?_, by rw [ticks_append, ht, ht', List.length_append], ?_, ?_⟩
  · rw [List.nodup_append]
    refine ⟨hn, hn', fun a ha b hb0 he => ?_⟩
    subst he
    exact (hb' a hb0).2 (h2 rfl a (.inr ha))
  · intro x hx
    rcases List.mem_append.1 hx with hx | hx
    · exact hb x hx
    · exact ⟨(hb' x hx).1, fun hs => (hb' x hx).2 (h2 rfl x (.inl hs))⟩
  · intro x hx
    rcases h1' x hx with hx | hx
    · rcases h1 x hx with hx | hx
      · exact .inl hx
      · exact .inr (List.mem_append_left _ hx)
    · exact .inr (List.mem_append_right _ hx)
  · intro hd x hx
    refine h2' hd x ?_
    rcases hx with hx | hx
    · exact .inl (h2 rfl x (.inl hx))
    · rcases List.mem_append.1 hx with hx | hx
      · exact .inl (h2 rfl x (.inr hx))
      · exact .inr hx

theorem Grow.mono {B B' : Nat} {s s' : PState} {l : List Ev} {d : Bool} (h : Grow I B s l d s') (hB : B ≤ B') :
    Grow I B' s l d s' := by
  obtain ⟨V, hn, hb, ht, h1, h2⟩ := h
  refine ⟨V, hn, fun x hx => ⟨?_, (hb x hx).2⟩, ht, h1, h2⟩
  obtain ⟨c, e, h1, h2, h3, h4⟩ := (hb x hx).1
  exact ⟨c, e, h1, h2, h3, by omega⟩

theorem Post.mono {B B' : Nat} {s : PState} {o : OOut} {Q Q' : ORes → Prop} (h : Post L I B s o Q) (hB : B ≤ B')
    (hQ : ∀ r, Q r → Q' r) : Post L I B' s o Q' := by
  obtain ⟨l, r, s', ho, hg, hm, hq, hn⟩ := h
  exact ⟨l, r, s', ho, hg.mono hB, hm, hQ r hq, hn⟩

theorem post_done {B : Nat} {s : PState} {log : List Ev} {r : ORes} {Q : ORes → Prop} (hl : ticks log = 0)
    (hm : MemoOk I s) (hq : Q r) (hp : ∀ c, r ≠ .panic none c := by intro c h; cases h) :
    Post L I B s (.done log r s) Q :=
  ⟨log, r, s, rfl, grow_refl hl, hm, hq, fun c h => absurd h (hp c), by omega, fun _ => by omega⟩

theorem post_andThen {B : Nat} {s : PState} {o : OOut} {Q R : ORes → Prop} {k : ORes → PState → OOut}
    (h : Post L I B s o Q)
    (hk : ∀ r s', MemoOk I s' → Q r → r.dead = false → Post L I B s' (k r s') R)
    (hp : ∀ p c s', k (.panic p c) s' = .done [] (.panic p c) s' ∧ R (.panic p c)) :
    Post L I B s (o.andThen k) R := by
  obtain ⟨l, r, s', ho, hg, hm, hq, hn⟩ := h
  subst ho
  rcases hd : r.dead with _ | _
  · rw [hd] at hg
    obtain ⟨l2, r2, s2, ho, hg2, hm2, hq2, hn2⟩ := hk r s' hm hq hd
    refine ⟨l ++ l2, r2, s2, by simp [OOut.andThen, ho], hg.trans hg2, hm2, hq2, ?_⟩
    have h1 := hn.2.2 hd
    unfold Counted
    rw [ticks_append]
    exact ⟨fun c h => by have := hn2.1 c h; omega, by have := hn2.2.1; omega, fun h => by have := hn2.2.2 h; omega⟩
  · cases r with
    | ok v c fr => cases hd
    | fail c => cases hd
    | panic p c =>
      have := hp p c s'
      exact ⟨l, .panic p c, s', by simp [OOut.andThen, this.1], hg, hm, this.2, hn⟩

/-! ### Setting and reading entries -/

theorem lookup_set (c : Cursor) (k : MKey) (r : MRes) (s : PState) (off : Nat) (k' : MKey) :
    (setMemoized c k r s).memo.lookup (off, k') =
      if (off, k') = (c.loc.off, k) then some r else s.memo.lookup (off, k') := by
  unfold setMemoized
  dsimp only
  rw [List.lookup_cons]
  by_cases h : (off, k') = (c.loc.off, k)
  · rw [if_pos h, h]; simp
  · rw [if_neg h]
    have : ((off, k') == (c.loc.off, k)) = false := by simpa using h
    rw [this]

theorem memoOk_set {c : Cursor} {k : MKey} {r : MRes} {s : PState} (h : MemoOk I s) (hc : OnInput I c)
    (hr : r.Fine k.nul c) : MemoOk I (setMemoized c k r s) := by
  intro off k' r' hl c' hc' ho
  rw [lookup_set] at hl
  split at hl
  · rename_i he
    cases hl
    cases he
    rw [hc'.inj hc ho]
    exact hr
  · exact h off k' r' hl c' hc' ho

theorem has_set_rule (c : Cursor) (q : Rule) (r : MRes) (s : PState) (x : Nat × NodeId) :
    Has (setMemoized c (.rule q) r s) x ↔ Has s x := by
  unfold Has
  rw [lookup_set, if_neg (by simp)]

theorem has_set_node (c : Cursor) (n : NodeId) (r : MRes) (s : PState) (x : Nat × NodeId) :
    Has (setMemoized c (.node n) r s) x ↔ x = (c.loc.off, n) ∨ Has s x := by
  unfold Has
  rw [lookup_set]
  by_cases h : (x.1, MKey.node x.2) = (c.loc.off, MKey.node n)
  · rw [if_pos h]
    have : x = (c.loc.off, n) := by
      simp at h; exact Prod.ext h.1 h.2
    simp [this]
  · rw [if_neg h]
    have : ¬ x = (c.loc.off, n) := by
      rintro rfl; exact h rfl
    simp [this]

theorem Grow.set_rule {B : Nat} {s s' : PState} {l : List Ev} {d : Bool} (h : Grow I B s l d s') (c : Cursor)
    (q : Rule) (r : MRes) : Grow I B s l d (setMemoized c (.rule q) r s') := by
  obtain ⟨V, hn, hb, ht, h1, h2⟩ := h
  exact ⟨V, hn, hb, ht, fun x hx => h1 x ((has_set_rule ..).1 hx), fun hd x hx => (has_set_rule ..).2 (h2 hd x hx)⟩

/-- A hit is a result like any other. -/
theorem post_hit {B : Nat} {s : PState} {fr : VFrame} {r : MRes} {c : Cursor} {nu : Bool} (hm : MemoOk I s)
    (hr : r.Fine nu c) : Post L I B s (memoHit fr s r) (ORes.Fine nu c) := by
  cases r with
  | ok v c' => exact post_done rfl hm hr
  | fail c' => exact post_done rfl hm hr

theorem memoStore_cnt (o : Opts) (c : Cursor) (k : MKey) (r : ORes) (s : PState) :
    (memoStore o c k r s).cnt = s.cnt := by
  unfold memoStore
  split
  · cases r <;> rfl
  · rfl

/-- A rule: the entry of the rule is set after the evaluation of its expression. -/
theorem post_rule {o : Opts} (ho : o.memoize = true) {B : Nat} {q : Rule} {fr : VFrame} {c : Cursor} {s : PState}
    {body : PState → OOut} (hc : OnInput I c) (hm : MemoOk I s) (h : Post L I B s (body s) (ORes.Fine (rnul q) c)) :
    Post L I B s (memoized o (.rule q) fr c s body) (ORes.Fine (rnul q) c) := by
  unfold memoized
  rw [ho, if_pos rfl]
  split
  · rename_i r hr
    exact post_hit hm (hm _ _ _ hr c hc rfl)
  · obtain ⟨l, r, s', hb, hg, hm', hq, hcnt⟩ := h
    rw [hb]
    refine ⟨l, r, memoStore o c (.rule q) r s', by simp [OOut.andThen], ?_, ?_, hq, ?_⟩
    · unfold memoStore
      rw [ho, if_pos rfl]
      cases r with
      | ok v c' fr' => exact hg.set_rule _ _ _
      | fail c' => exact hg.set_rule _ _ _
      | panic p c' => exact hg
    · unfold memoStore
      rw [ho, if_pos rfl]
      cases r with
      | ok v c' fr' => exact memoOk_set hm' hc hq
      | fail c' => exact memoOk_set hm' hc hq
      | panic p c' => exact hm'
    · unfold Counted
      rw [memoStore_cnt]
      exact hcnt

/-- An expression: it is counted, and its entry is set after the evaluation. -/
theorem post_node {o : Opts} (ho : o.memoize = true) (hL : o.limit = L) {n : NodeId} {e : PExpr} {fr : VFrame} {c : Cursor}
    {s : PState} {body : PState → OOut} (hc : OnInput I c) (hn : nodeAt n = some e) (hm : MemoOk I s)
    (h : ∀ s', s'.memo = s.memo → Post L I (c.rest.length * 40 + cost e) s' (body s') (ORes.Fine (nul e) c)) :
    Post L I (c.rest.length * 40 + cost e + 1) s (memoized o (.node n) fr c s fun s => oTick o c s body)
      (ORes.Fine (nul e) c) := by
  have hnul : (MKey.node n).nul = nul e := by simp [MKey.nul, hn]
  unfold memoized
  rw [ho, if_pos rfl]
  split
  · rename_i r hr
    have := hm _ _ _ hr c hc rfl
    rw [hnul] at this
    exact post_hit hm this
  · rename_i hr
    have hnot : ¬ Has s (c.loc.off, n) := fun hx => hx hr
    unfold oTick
    dsimp only
    split
    · simp only [OOut.andThen]
      refine ⟨[], .panic none c, ⟨(s.cnt + 1) % 2 ^ 64, s.memo⟩, ?_, ?_, ?_, trivial, ?_⟩
      · simp [memoStore]
      · exact ⟨[], .nil, by simp, rfl, fun x hx => .inl hx, fun hd => by cases hd⟩
      · exact hm
      · have := Nat.mod_le (s.cnt + 1) (2 ^ 64)
        rename_i hlt
        refine ⟨fun c' _ => ?_, ?_, fun h => by cases h⟩
        · rw [← hL]
          have : o.limit < s.cnt + 1 := Nat.lt_of_lt_of_le hlt this
          omega
        · exact Nat.le_trans this (by omega)
    · obtain ⟨l, r, s', hb, ⟨V, hV, hbel, ht, h1, h2⟩, hm', hq, hcnt⟩ := h ⟨(s.cnt + 1) % 2 ^ 64, s.memo⟩ rfl
      have hnew : (c.loc.off, n) ∉ V := by
        intro hx
        obtain ⟨c', e', hc', hoff, he', hlt⟩ := (hbel _ hx).1
        rw [hn] at he'
        cases he'
        rw [hc'.inj hc hoff] at hlt
        omega
      refine ⟨.tick :: l, r, memoStore o c (.node n) r s', ?_, ?_, ?_, hq, ?_⟩
      · simp only [OOut.andThen]
        rw [hb]
        simp
      · have hB : ∀ x ∈ (c.loc.off, n) :: V, MemoBelow I (c.rest.length * 40 + cost e + 1) x ∧ ¬ Has s x := by
          intro x hx
          rcases List.mem_cons.1 hx with rfl | hx
          · exact ⟨⟨c, e, hc, rfl, hn, by omega⟩, hnot⟩
          · obtain ⟨⟨c', e', a1, a2, a3, a4⟩, a5⟩ := hbel x hx
            exact ⟨⟨c', e', a1, a2, a3, by omega⟩, a5⟩
        refine ⟨(c.loc.off, n) :: V, List.nodup_cons.2 ⟨hnew, hV⟩, hB, by rw [ticks_cons, ht]; rfl, ?_, ?_⟩
        · have key : ∀ x, Has s' x → Has s x ∨ x ∈ (c.loc.off, n) :: V := fun x hx => by
            rcases h1 x hx with hx | hx
            · exact .inl hx
            · exact .inr (List.mem_cons_of_mem _ hx)
          intro x hx
          unfold memoStore at hx
          rw [ho, if_pos rfl] at hx
          cases r with
          | ok v c' fr' =>
            rcases (has_set_node ..).1 hx with rfl | hx
            · exact .inr (List.mem_cons_self ..)
            · exact key x hx
          | fail c' =>
            rcases (has_set_node ..).1 hx with rfl | hx
            · exact .inr (List.mem_cons_self ..)
            · exact key x hx
          | panic p c' => exact key x hx
        · intro hd x hx
          have key : x = (c.loc.off, n) ∨ Has s' x := by
            rcases hx with hx | hx
            · exact .inr (h2 hd x (.inl hx))
            · rcases List.mem_cons.1 hx with rfl | hx
              · exact .inl rfl
              · exact .inr (h2 hd x (.inr hx))
          unfold memoStore
          rw [ho, if_pos rfl]
          cases r with
          | ok v c' fr' => exact (has_set_node ..).2 key
          | fail c' => exact (has_set_node ..).2 key
          | panic p c' => cases hd
      · unfold memoStore
        rw [ho, if_pos rfl]
        cases r with
        | ok v c' fr' => exact memoOk_set hm' hc (by rw [hnul]; exact hq)
        | fail c' => exact memoOk_set hm' hc hq
        | panic p c' => exact hm'
      · have hmod := Nat.mod_le (s.cnt + 1) (2 ^ 64)
        obtain ⟨a1, a2, a3⟩ := hcnt
        dsimp only at a1 a2 a3
        unfold Counted
        rw [memoStore_cnt, ticks_cons]
        exact ⟨fun c' h => by have := a1 c' h; omega, by omega, fun h => by have := a3 h; omega⟩

/-! ### The run -/

/-- The recovery stack holds shallow expressions of the grammar. -/
def OCtxOk (ctx : OCtx) : Prop :=
  ∀ p ∈ ctx.recov, nodeAt p.2.1 = some p.2.2 ∧ wf p.2.2 = true ∧ cost p.2.2 ≤ 2

/-- What the evaluation of sub-expressions with this fuel does. -/
def EvPost (L : Nat) (I : List Sym) (f : Nat) (ev : OEval) : Prop :=
  ∀ ctx n e fr c s, nodeAt n = some e → wf e = true → OCtxOk ctx → OnInput I c →
    c.rest.length * 40 + cost e ≤ f → MemoOk I s →
    Post L I (c.rest.length * 40 + cost e + 1) s (ev ctx n e fr c s) (ORes.Fine (nul e) c)

section
variable {f : Nat} {ev : OEval} (hev : EvPost L I f ev)
include hev

theorem post_seq (ctx : OCtx) (hctx : OCtxOk ctx) (n : NodeId) (start : Cursor) (hst : OnInput I start) (N : Nat)
    (hL : start.rest.length = N) (B : Nat) (hB : N * 40 ≤ B) (hf : B ≤ f + 1)
    (es : List PExpr) : ∀ i acc fr c s, (∀ j e, es[j]? = some e → nodeAt (n.child (i + j)) = some e) →
    wfAll es = true → (∃ t, Adv start t c) →
    (c.rest.length * 40 + costSeq es < B ∨ c.rest.length < N) → MemoOk I s →
    Post L I B s (oSeqLoop ev ctx n start i es acc fr c s)
      (ORes.Fine (nulAll es && decide (c.rest.length = N)) start) := by
  induction es with
  | nil =>
    intro i acc fr c s hn hw ha hc hm
    refine post_done rfl hm ⟨ha, fun h => ?_⟩
    obtain ⟨t, ht⟩ := ha
    have := ht.length_le
    simp [nulAll] at h
    omega
  | cons e es ih =>
    intro i acc fr c s hn hw ha hc hm
    simp only [wfAll, Bool.and_eq_true, decide_eq_true_eq] at hw
    simp only [costSeq] at hc
    obtain ⟨t, ht⟩ := ha
    have hle := ht.length_le
    have hcB : c.rest.length * 40 + cost e + 1 ≤ B := by
      rcases hc with hc | hc
      · omega
      · omega
    refine post_andThen ((hev ctx _ e fr c s (hn 0 e rfl) hw.1.1 hctx (hst.adv ht) (by omega) hm).mono hcB
      (fun _ h => h)) (fun r s' hm' hr hd => ?_) (fun p c' s' => ⟨rfl, trivial⟩)
    cases r with
    | ok v c' fr' =>
      obtain ⟨⟨u, hu⟩, hlt⟩ := hr
      have hle' := hu.length_le
      have hcon := ih (i + 1) (acc ++ [v]) fr' c' s' (fun j e' he' => by
        rw [show i + 1 + j = i + (j + 1) by omega]; exact hn (j + 1) e' he') hw.2 ⟨_, ht.trans hu⟩ ?_ hm'
      · refine hcon.mono (Nat.le_refl _) fun r hr => ?_
        cases r with
        | ok v c'' fr'' =>
          refine ⟨hr.1, fun h => hr.2 ?_⟩
          simp only [nulAll, Bool.and_eq_false_iff, decide_eq_false_iff_not] at h ⊢
          rcases h with (h | h) | h
          · right; have := hlt h; omega
          · left; exact h
          · right; omega
        | fail c'' => exact hr
        | panic p c'' => trivial
      · rcases hne : nul e with _ | _
        · right; have := hlt hne; omega
        · rw [hne, if_pos rfl] at hc
          rcases hc with hc | hc
          · left; omega
          · right; omega
    | fail c' => exact post_done rfl hm' rfl
    | panic p c' => cases hd

theorem post_choice (ctx : OCtx) (hctx : OCtxOk ctx) (n : NodeId) (fr : VFrame) (c : Cursor) (hc : OnInput I c)
    (B : Nat) (hf : B ≤ f + 1) (es : List PExpr) : ∀ i s,
    (∀ j e, es[j]? = some e → nodeAt (n.child (i + j)) = some e) → wfAll es = true →
    c.rest.length * 40 + costMax es < B → MemoOk I s →
    Post L I B s (oChoiceLoop ev ctx n fr i es c s) (ORes.Fine (nulAny es) c) := by
  induction es with
  | nil =>
    intro i s hn hw hB hm
    exact post_done rfl hm rfl
  | cons e es ih =>
    intro i s hn hw hB hm
    simp only [wfAll, Bool.and_eq_true, decide_eq_true_eq] at hw
    simp only [costMax] at hB
    refine post_andThen ((hev ctx _ e [] c s (hn 0 e rfl) hw.1.1 hctx hc (by omega) hm).mono
      (by omega) (fun _ h => h)) (fun r s' hm' hr hd => ?_) (fun p c' s' => ⟨rfl, trivial⟩)
    cases r with
    | ok v c' fr' =>
      refine post_done rfl hm' ⟨hr.1, fun h => hr.2 ?_⟩
      simp only [nulAny, Bool.or_eq_false_iff] at h
      exact h.1
    | fail c' =>
      have : c' = c := hr
      subst this
      refine (ih (i + 1) s' (fun j e' he' => by
        rw [show i + 1 + j = i + (j + 1) by omega]; exact hn (j + 1) e' he') hw.2 (by omega) hm').mono
        (Nat.le_refl _) fun r hr => ?_
      cases r with
      | ok v c'' fr'' =>
        refine ⟨hr.1, fun h => hr.2 ?_⟩
        simp only [nulAny, Bool.or_eq_false_iff] at h
        exact h.2
      | fail c'' => exact hr
      | panic p c'' => trivial
    | panic p c' => cases hd

theorem post_rep (ctx : OCtx) (hctx : OCtxOk ctx) (n : NodeId) (fr : VFrame) (e : PExpr) (one : Bool)
    (hn : nodeAt (n.child 0) = some e) (hw : wf e = true) (hnul : nul e = false)
    (start : Cursor) (hst : OnInput I start) (B : Nat) (hB : start.rest.length * 40 + cost e < B)
    (hf : B ≤ f + 1) (k : Nat) : ∀ acc c s, (∃ t, Adv start t c) → c.rest.length < k →
    (acc = [] → c = start) → (acc ≠ [] → c.rest.length < start.rest.length) → MemoOk I s →
    Post L I B s (oRepLoop ev ctx n fr e one k acc c s) (ORes.Fine (!one) start) := by
  induction k with
  | zero => intro acc c s ha hk; omega
  | succ k ih =>
    intro acc c s ha hk h0 h1 hm
    obtain ⟨t, ht⟩ := ha
    have hle := ht.length_le
    refine post_andThen ((hev ctx _ e [] c s hn hw hctx (hst.adv ht) (by omega) hm).mono (by omega)
      (fun _ h => h)) (fun r s' hm' hr hd => ?_) (fun p c' s' => ⟨rfl, trivial⟩)
    cases r with
    | ok v c' fr' =>
      obtain ⟨⟨u, hu⟩, hlt⟩ := hr
      have := hlt hnul
      exact ih _ _ _ ⟨_, ht.trans hu⟩ (by omega) (fun h => by simp at h) (fun _ => by omega) hm'
    | fail c' =>
      have hcc : c' = c := hr
      subst hcc
      refine post_done rfl hm' ?_ (by intro c h; split at h <;> cases h)
      by_cases hx : one ∧ acc = []
      · rw [if_pos hx]
        exact h0 hx.2
      · rw [if_neg hx]
        refine ⟨⟨t, ht⟩, fun h => h1 fun ha => hx ⟨by simpa using h, ha⟩⟩
    | panic p c' => cases hd

theorem post_throw (ctx : OCtx) (hctx : OCtxOk ctx) (l : FailLabel) (fr : VFrame) (c : Cursor) (hc : OnInput I c)
    (B : Nat) (hB : c.rest.length * 40 + 2 < B) (hf : B ≤ f + 1) (rs : List (FailLabel × NodeId × PExpr)) : ∀ s,
    (∀ p ∈ rs, nodeAt p.2.1 = some p.2.2 ∧ wf p.2.2 = true ∧ cost p.2.2 ≤ 2) → MemoOk I s →
    Post L I B s (oThrowLoop ev ctx l fr rs c s) (ORes.Fine true c) := by
  induction rs with
  | nil =>
    intro s _ hm
    exact post_done rfl hm rfl
  | cons x rs ih =>
    obtain ⟨l', n, e⟩ := x
    intro s hrs hm
    have hp := hrs _ (List.mem_cons_self ..)
    have hrs' := fun p hp => hrs p (List.mem_cons_of_mem _ hp)
    dsimp only at hp
    unfold oThrowLoop
    split
    · refine post_andThen ((hev ctx _ e fr c s hp.1 hp.2.1 hctx hc (by omega) hm).mono (by omega)
        (fun _ h => h)) (fun r s' hm' hr hd => ?_) (fun p c' s' => ⟨rfl, trivial⟩)
      cases r with
      | ok v c' fr' => exact post_done rfl hm' ⟨hr.1, fun h => by cases h⟩
      | fail c' =>
        have : c' = c := hr
        subst this
        exact ih s' hrs' hm'
      | panic p c' => cases hd
    · exact ih s hrs' hm

end

theorem fine_leaf {B : Nat} {s : PState} {k : Nat} {inv : Bool} {e : PExpr} {fr : VFrame} {c : Cursor}
    (hm : MemoOk I s) {log : List Ev} {r : Res}
    (hs : step E k (fun _ _ _ _ => .oof) ⟨inv, []⟩ e fr c = .done log r) (ht : ticks log = 0)
    (hf : (ORes.ofRes r).Fine (nul e) c) :
    Post L I B s (.ofOut s (step E k (fun _ _ _ _ => .oof) ⟨inv, []⟩ e fr c)) (ORes.Fine (nul e) c) := by
  rw [hs]
  exact post_done ht hm hf (by intro c h; cases r <;> cases h)

theorem memo_run {o : Opts} (ho : o.memoize = true) : ∀ f, EvPost o.limit I f (oRun E o f) := by
  intro f
  induction f with
  | zero =>
    intro ctx n e fr c s _ _ _ _ h
    have := cost_pos e
    omega
  | succ f ih =>
    intro ctx n e fr c s hn hw hctx hc hen hm
    unfold oRun
    refine post_node ho rfl hc hn hm fun s hs => ?_
    have hm : MemoOk I s := by
      unfold MemoOk at hm ⊢
      rw [hs]; exact hm
    have hchild : ∀ i e', e.child i = some e' → nodeAt (n.child i) = some e' := fun i e' h => nodeAt_child hn h
    cases e with
    | action a e =>
      simp only [cost] at hen ⊢
      refine post_andThen ((ih ctx _ e fr c s (hchild 0 e rfl) hw hctx hc (by omega) hm).mono (by omega)
        (fun _ h => h)) (fun r s' hm' hr hd => ?_) (fun p c' s' => ⟨rfl, trivial⟩)
      cases r with
      | ok v c' fr' =>
        dsimp only [actStep]
        rcases runAct E a fr' (textOf c c') c.loc with p | ⟨v', _ | er⟩
        · exact post_done rfl hm' trivial
        · exact post_done rfl hm' hr
        · exact post_done rfl hm' hr
      | fail c' => exact post_done rfl hm' hr
      | panic p c' => cases hd
    | seq es =>
      simp only [cost] at hen ⊢
      refine (post_seq ih ctx hctx n c hc _ rfl _ (by omega) (by omega) es 0 [] fr c s (fun j e he => ?_) hw
        ⟨[], .refl c⟩ (.inl (by omega)) hm).mono (Nat.le_refl _) fun r hr => ?_
      · rw [Nat.zero_add]; exact hchild j e he
      · cases r with
        | ok v c' fr' => exact ⟨hr.1, fun h => hr.2 (by rw [show nulAll es = false from h]; rfl)⟩
        | fail c' => exact hr
        | panic p c' => trivial
    | choice es =>
      simp only [cost] at hen ⊢
      refine post_choice ih ctx hctx n fr c hc _ (by omega) es 0 s (fun j e he => ?_) hw (by omega) hm
      rw [Nat.zero_add]; exact hchild j e he
    | label x e =>
      simp only [cost] at hen ⊢
      refine post_andThen ((ih ctx _ e [] c s (hchild 0 e rfl) hw hctx hc (by omega) hm).mono (by omega)
        (fun _ h => h)) (fun r s' hm' hr hd => ?_) (fun p c' s' => ⟨rfl, trivial⟩)
      cases r with
      | ok v c' fr' => exact post_done rfl hm' hr
      | fail c' => exact post_done rfl hm' hr
      | panic p c' => cases hd
    | rule q =>
      simp only [cost] at hen ⊢
      have hq := grammar_cost q
      simp only [oStep, nul]
      refine post_rule ho hc hm ?_
      refine post_andThen ((ih ctx _ (grammar q) [] c s (nodeAt_root q) (grammar_wf q) hctx hc (by omega) hm).mono
        (by omega) (fun _ h => h)) (fun r s' hm' hr hd => ?_) (fun p c' s' => ⟨rfl, trivial⟩)
      have hnul : rnul q = false → nul (grammar q) = false := by
        intro h
        rcases hg : nul (grammar q) with _ | _
        · rfl
        · rw [rnul_ok q hg] at h; cases h
      cases r with
      | ok v c' fr' => exact post_done rfl hm' ⟨hr.1, fun h => hr.2 (hnul h)⟩
      | fail c' => exact post_done rfl hm' hr
      | panic p c' => cases hd
    | lit w ic want =>
      rcases hl : litLoop E ic w c with ⟨l, _ | c'⟩
      · refine fine_leaf (k := f) (inv := ctx.inv) (log := l ++ [.mark false ctx.inv c.loc want]) (r := .fail c) hm
          (by simp only [step, hl]) (by rw [ticks_append, ticks_litLoop hl]; rfl) rfl
      · obtain ⟨t, ht, -, hlen⟩ := (litLoop_inv hl).2 _ rfl
        refine fine_leaf (k := f) (inv := ctx.inv) (log := l ++ [.mark true ctx.inv c.loc want])
          (r := .ok (.bytes (textOf c c')) c' fr) hm
          (by simp only [step, hl]) (by rw [ticks_append, ticks_litLoop hl]; rfl) ⟨⟨t, ht⟩, fun h => ?_⟩
        have hr := ht.rest
        have : 0 < t.length := by
          rw [hlen]
          rcases w with _ | ⟨x, w⟩
          · cases h
          · simp
        rw [hr, List.length_append]
        omega
    | cls chars ranges ic inv want =>
      rcases hr : c.rest with _ | ⟨x, u⟩
      · rw [← hr]
        exact fine_leaf (k := f) (inv := ctx.inv) (log := [.mark false ctx.inv c.loc want]) (r := .fail c) hm
          (by simp only [step, hr]) rfl rfl
      · rw [← hr]
        rcases hcm : clsMatch E chars ranges ic inv x.rune with _ | _
        · exact fine_leaf (k := f) (inv := ctx.inv) (log := [.mark false ctx.inv c.loc want]) (r := .fail c) hm
            (by simp only [step, hr, hcm]; rfl) rfl rfl
        · refine fine_leaf (k := f) (inv := ctx.inv) (log := encErr c.next ++ [.mark true ctx.inv c.loc want])
            (r := .ok (.bytes (textOf c c.next)) c.next fr) hm
            (by simp only [step, hr, hcm]; rfl) (by rw [ticks_append, ticks_encErr]; rfl)
            ⟨⟨_, .one hr⟩, fun _ => by rw [next_rest hr, hr]; simp⟩
    | any =>
      rcases hr : c.rest with _ | ⟨x, u⟩
      · rw [← hr]
        exact fine_leaf (k := f) (inv := ctx.inv) (log := [.mark false ctx.inv c.loc ['.']]) (r := .fail c) hm
          (by simp only [step, hr]) rfl rfl
      · rw [← hr]
        exact fine_leaf (k := f) (inv := ctx.inv) (log := encErr c.next ++ [.mark true ctx.inv c.loc ['.']])
            (r := .ok (.bytes (textOf c c.next)) c.next fr) hm
            (by simp only [step, hr]) (by rw [ticks_append, ticks_encErr]; rfl)
            ⟨⟨_, .one hr⟩, fun _ => by rw [next_rest hr, hr]; simp⟩
    | not e =>
      simp only [cost] at hen ⊢
      refine post_andThen ((ih { ctx with inv := !ctx.inv } _ e [] c s (hchild 0 e rfl) hw hctx hc (by omega) hm).mono
        (by omega) (fun _ h => h)) (fun r s' hm' hr hd => ?_) (fun p c' s' => ⟨rfl, trivial⟩)
      cases r with
      | ok v c' fr' => exact post_done rfl hm' rfl
      | fail c' => exact post_done rfl hm' ⟨⟨[], .refl c⟩, fun h => by cases h⟩
      | panic p c' => cases hd
    | star e =>
      simp only [wf, Bool.and_eq_true, Bool.not_eq_true', decide_eq_true_eq] at hw
      simp only [cost] at hen ⊢
      exact post_rep ih ctx hctx n fr e false (hchild 0 e rfl) hw.1.1 hw.1.2 c hc _ (by omega) (by omega) f
        [] c s ⟨[], .refl c⟩ (by have := cost_pos e; omega) (fun _ => rfl) (fun h => absurd rfl h) hm
    | plus e =>
      simp only [wf, Bool.and_eq_true, Bool.not_eq_true', decide_eq_true_eq] at hw
      simp only [cost] at hen ⊢
      refine (post_rep ih ctx hctx n fr e true (hchild 0 e rfl) hw.1.1 hw.1.2 c hc _ (by omega) (by omega) f
        [] c s ⟨[], .refl c⟩ (by have := cost_pos e; omega) (fun _ => rfl) (fun h => absurd rfl h) hm).mono
        (Nat.le_refl _) fun r hr => ?_
      cases r with
      | ok v c' fr' => exact ⟨hr.1, fun _ => hr.2 rfl⟩
      | fail c' => exact hr
      | panic p c' => trivial
    | opt e =>
      simp only [cost] at hen ⊢
      refine post_andThen ((ih ctx _ e [] c s (hchild 0 e rfl) hw hctx hc (by omega) hm).mono (by omega)
        (fun _ h => h)) (fun r s' hm' hr hd => ?_) (fun p c' s' => ⟨rfl, trivial⟩)
      cases r with
      | ok v c' fr' => exact post_done rfl hm' ⟨hr.1, fun h => by cases h⟩
      | fail c' =>
        have : c' = c := hr
        subst this
        exact post_done rfl hm' ⟨⟨[], .refl _⟩, fun h => by cases h⟩
      | panic p c' => cases hd
    | recover x e r =>
      simp only [wf, Bool.and_eq_true, decide_eq_true_eq] at hw
      simp only [cost] at hen ⊢
      refine (ih { ctx with recov := (x, n.child 1, r) :: ctx.recov } _ e fr c s (hchild 0 e rfl) hw.1.1 ?_ hc
        (by omega) hm).mono (by omega) (fun _ h => h)
      intro p hp
      rcases List.mem_cons.1 hp with rfl | hp
      · exact ⟨hchild 1 r rfl, hw.1.2, hw.2⟩
      · exact hctx p hp
    | throw x =>
      simp only [cost] at hen ⊢
      exact post_throw ih ctx hctx x fr c hc _ (by omega) (by omega) ctx.recov s hctx hm
    | state st =>
      exact fine_leaf (E := E) (e := .state st) (k := f) (inv := ctx.inv) (log := [.err c.loc (runState st)])
        (r := .ok .nil c fr) hm rfl rfl
        ⟨⟨[], .refl c⟩, fun h => by cases h⟩

/-- The offsets of an input. -/
def offsOf (c : Cursor) : List Sym → List Nat
  | [] => [c.loc.off]
  | _ :: u => c.loc.off :: offsOf c.next u

theorem offsOf_length (u : List Sym) : ∀ c, (offsOf c u).length = u.length + 1 := by
  induction u with
  | nil => intro c; rfl
  | cons s u ih => intro c; simp [offsOf, ih]

theorem mem_offsOf {c c' : Cursor} {t : List Sym} (h : Adv c t c') : c'.loc.off ∈ offsOf c c.rest := by
  induction h with
  | refl c =>
    rcases c.rest with _ | ⟨s, u⟩ <;> simp [offsOf]
  | step hr _ ih =>
    rw [hr, offsOf, List.mem_cons]
    rw [next_rest hr] at ih
    exact .inr ih

/-- The run of the start rule ends, and has at most one evaluation for each offset and expression. -/
theorem memo_start {o : Opts} (ho : o.memoize = true) (input : List Sym) : ∃ log r s,
    oRunStart E o input = .done log r s ∧ ticks log ≤ 312 * (input.length + 1) ∧ (ORes.Fine false (.init input)) r ∧
    ∀ c, r = .panic none c → o.limit ≤ ticks log := by
  have hc : OnInput input (.init input) := ⟨[], .refl _⟩
  have hm : MemoOk input ⟨0, []⟩ := by intro off k r h; cases h
  have hp : Post o.limit input (input.length * 40 + 39 + 1) ⟨0, []⟩
      (oParseRule o (oRun E o (depthBound input.length)) ⟨false, []⟩ .Start [] (.init input) ⟨0, []⟩)
      (ORes.Fine (rnul .Start) (.init input)) := by
    unfold oParseRule
    refine post_rule ho hc hm ?_
    have h39 : cost (grammar .Start) ≤ 39 := by decide
    refine post_andThen ((memo_run ho _ ⟨false, []⟩ _ (grammar .Start) [] (.init input) ⟨0, []⟩ (nodeAt_root _)
      (grammar_wf _) (fun p hp => by cases hp) hc (by simp only [depthBound, Cursor.init]; omega) hm).mono
      (by simp only [Cursor.init]; omega) (fun _ h => h)) (fun r s' hm' hr hd => ?_) (fun p c' s' => ⟨rfl, trivial⟩)
    have hnul : nul (grammar .Start) = false := by decide
    cases r with
    | ok v c' fr' => exact post_done rfl hm' ⟨hr.1, fun _ => hr.2 hnul⟩
    | fail c' => exact post_done rfl hm' hr
    | panic p c' => cases hd
  obtain ⟨l, r, s', hr, ⟨V, hV, hb, ht, -⟩, -, hq, hcnt, -⟩ := hp
  refine ⟨encErr (.init input) ++ l, r, s', ?_, ?_, hq, ?_⟩
  · unfold oRunStart
    simp only [OOut.andThen]
    rw [hr]
  · rw [ticks_append, ticks_encErr, Nat.zero_add, ht]
    have hsub : V ⊆ (offsOf (.init input) input) ×ˢ allNodes := by
      intro x hx
      obtain ⟨⟨c, e, ⟨t, hadv⟩, hoff, hn, -⟩, -⟩ := hb x hx
      refine List.mem_product.2 ⟨?_, mem_allNodes hn⟩
      rw [← hoff]
      exact mem_offsOf hadv
    have := (List.Nodup.subperm hV hsub).length_le
    rw [List.length_product, offsOf_length, allNodes_length] at this
    rw [Nat.mul_comm]
    exact this
  · intro c h
    have := hcnt c h
    dsimp only at this
    rw [ticks_append, ticks_encErr]
    omega

end Aql
