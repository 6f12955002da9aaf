import Verif.Proofs.CostFlat
/-!
Upper bound on the number of evaluations: at most cubic in the length of the query, times four to the
number of opening parentheses.
-/

namespace Aql

variable {E : Env}

def Res.fin : Res → Option Cursor
  | .ok _ c _ => some c
  | _ => none

/-- `e` at `c` takes `k` evaluations and ends at `o` (`none` for a failure or a panic). -/
def Run (E : Env) (e : PExpr) (c : Cursor) (k : Nat) (o : Option Cursor) : Prop :=
  ∃ fr l r, Big E ⟨false, []⟩ (.expr e fr) c l r ∧ ticks l = k ∧ r.fin = o

/-- The same with no labels yet. -/
def Run0 (E : Env) (e : PExpr) (c : Cursor) (k : Nat) (o : Option Cursor) : Prop :=
  ∃ l r, Big E ⟨false, []⟩ (.expr e []) c l r ∧ ticks l = k ∧ r.fin = o

def RunSeq (E : Env) (es : List PExpr) (c : Cursor) (k : Nat) (o : Option Cursor) : Prop :=
  ∃ st acc fr l r, Big E ⟨false, []⟩ (.seq st es acc fr) c l r ∧ ticks l = k ∧ r.fin = o

def RunAlt (E : Env) (es : List PExpr) (c : Cursor) (k : Nat) (o : Option Cursor) : Prop :=
  ∃ fr l r, Big E ⟨false, []⟩ (.choice fr es) c l r ∧ ticks l = k ∧ r.fin = o

variable {e : PExpr} {es : List PExpr} {c : Cursor} {k : Nat} {o : Option Cursor}

theorem Run0.run (h : Run0 E e c k o) : Run E e c k o := by
  obtain ⟨l, r, h⟩ := h
  exact ⟨[], l, r, h⟩

theorem fin_stop {r : Res} (h : r.stops) : r.fin = none := by
  cases r with
  | ok => exact h.elim
  | _ => rfl

theorem run_rule {x : Rule} (h : Run E (.rule x) c k o) : ∃ k', k = k' + 1 ∧ Run0 E (grammar x) c k' o := by
  obtain ⟨fr, l, r, h, rfl, rfl⟩ := h
  cases h with
  | rule_ok h => exact ⟨_, ticks_cons _, _, _, h, rfl, rfl⟩
  | rule_stop h hs => exact ⟨_, ticks_cons _, _, _, h, rfl, rfl⟩

theorem run_label {x : PLabel} (h : Run E (.label x e) c k o) : ∃ k', k = k' + 1 ∧ Run0 E e c k' o := by
  obtain ⟨fr, l, r, h, rfl, rfl⟩ := h
  cases h with
  | label_ok h => exact ⟨_, ticks_cons _, _, _, h, rfl, rfl⟩
  | label_stop h hs => exact ⟨_, ticks_cons _, _, _, h, rfl, rfl⟩

theorem run_action {a : Act} (h : Run0 E (.action a e) c k o) :
    ∃ k' o', k = k' + 1 ∧ Run0 E e c k' o' ∧ (o = o' ∨ o = none) := by
  obtain ⟨l, r, h, rfl, rfl⟩ := h
  cases h with
  | action_ok h => exact ⟨_, _, ticks_cons _, ⟨_, _, h, rfl, rfl⟩, .inl rfl⟩
  | action_err h => exact ⟨_, _, by rw [ticks_cons, ticks_append]; rfl, ⟨_, _, h, rfl, rfl⟩, .inl rfl⟩
  | action_panic h => exact ⟨_, _, ticks_cons _, ⟨_, _, h, rfl, rfl⟩, .inr rfl⟩
  | action_stop h => exact ⟨_, _, ticks_cons _, ⟨_, _, h, rfl, rfl⟩, .inl rfl⟩

theorem run_seq (h : Run0 E (.seq es) c k o) : ∃ k', k = k' + 1 ∧ RunSeq E es c k' o := by
  obtain ⟨l, r, h, rfl, rfl⟩ := h
  cases h with
  | seq h => exact ⟨_, ticks_cons _, _, _, _, _, _, h, rfl, rfl⟩

theorem run_choice (h : Run0 E (.choice es) c k o) : ∃ k', k = k' + 1 ∧ RunAlt E es c k' o := by
  obtain ⟨l, r, h, rfl, rfl⟩ := h
  cases h with
  | choice h => exact ⟨_, ticks_cons _, _, _, _, h, rfl, rfl⟩

theorem runSeq_nil (h : RunSeq E [] c k o) : k = 0 ∧ o = some c := by
  obtain ⟨st, acc, fr, l, r, h, rfl, rfl⟩ := h
  cases h with
  | seq_nil => exact ⟨rfl, rfl⟩

theorem runSeq_cons (h : RunSeq E (e :: es) c k o) : ∃ k1 o1, Run E e c k1 o1 ∧
    ((o1 = none ∧ o = none ∧ k = k1) ∨ ∃ c1 k2, o1 = some c1 ∧ RunSeq E es c1 k2 o ∧ k = k1 + k2) := by
  obtain ⟨st, acc, fr, l, r, h, rfl, rfl⟩ := h
  cases h with
  | seq_cons h1 h2 =>
    exact ⟨_, _, ⟨_, _, _, h1, rfl, rfl⟩, .inr ⟨_, _, rfl, ⟨_, _, _, _, _, h2, rfl, rfl⟩, ticks_append _ _⟩⟩
  | seq_fail h1 => exact ⟨_, _, ⟨_, _, _, h1, rfl, rfl⟩, .inl ⟨rfl, rfl, rfl⟩⟩
  | seq_panic h1 => exact ⟨_, _, ⟨_, _, _, h1, rfl, rfl⟩, .inl ⟨rfl, rfl, rfl⟩⟩

theorem runAlt_nil (h : RunAlt E [] c k o) : k = 0 ∧ o = none := by
  obtain ⟨fr, l, r, h, rfl, rfl⟩ := h
  cases h with
  | choice_nil => exact ⟨rfl, rfl⟩

theorem runAlt_cons (h : RunAlt E (e :: es) c k o) : ∃ k1 o1, Run0 E e c k1 o1 ∧
    ((o = o1 ∧ k = k1) ∨ (o1 = none ∧ ∃ k2, RunAlt E es c k2 o ∧ k = k1 + k2)) := by
  obtain ⟨fr, l, r, h, rfl, rfl⟩ := h
  cases h with
  | choice_ok h1 => exact ⟨_, _, ⟨_, _, h1, rfl, rfl⟩, .inl ⟨rfl, rfl⟩⟩
  | choice_next h1 h2 =>
    have hb := h1.fail_back
    subst hb
    exact ⟨_, _, ⟨_, _, h1, rfl, rfl⟩, .inr ⟨rfl, _, ⟨_, _, _, h2, rfl, rfl⟩, ticks_append _ _⟩⟩
  | choice_panic h1 => exact ⟨_, _, ⟨_, _, h1, rfl, rfl⟩, .inl ⟨rfl, rfl⟩⟩

theorem run_adv {c' : Cursor} (h : Run E e c k (some c')) : ∃ t, Adv c t c' := by
  obtain ⟨fr, l, r, h, -, hr⟩ := h
  cases r with
  | ok v c'' fr' => cases hr; exact h.ok_adv
  | _ => cases hr

theorem run_reads {c' : Cursor} (h : Run E e c k (some c')) (hn : nul e = false) :
    c'.rest.length < c.rest.length := by
  obtain ⟨fr, l, r, h, -, hr⟩ := h
  cases r with
  | ok v c'' fr' => cases hr; exact h.consumes _ _ _ rfl hn
  | _ => cases hr

theorem run0_det {k' : Nat} {o' : Option Cursor} (h : Run0 E e c k o) (h' : Run0 E e c k' o') :
    k = k' ∧ o = o' := by
  obtain ⟨l, r, h, rfl, rfl⟩ := h
  obtain ⟨l', r', h', rfl, rfl⟩ := h'
  obtain ⟨rfl, rfl⟩ := h.det h'
  exact ⟨rfl, rfl⟩

theorem run_rule_det {x : Rule} {k' : Nat} {o' : Option Cursor} (h : Run E (.rule x) c k o)
    (h' : Run E (.rule x) c k' o') : k = k' ∧ o = o' := by
  obtain ⟨a, rfl, h1⟩ := run_rule h
  obtain ⟨b, rfl, h2⟩ := run_rule h'
  obtain ⟨rfl, rfl⟩ := run0_det h1 h2
  exact ⟨rfl, rfl⟩

/-- Bound for the expressions without recursive rules. -/
theorem run_flat {q : Nat} (h : Run E e c k o) (hf : flatE e = true) (hq : c.rest.length + 1 ≤ q)
    (hk : coef e ≤ 1100 := by decide) (hd : deg e ≤ 2 := by decide) : k ≤ 1100 * q ^ 2 := by
  obtain ⟨fr, l, r, h, rfl, -⟩ := h
  have := h.flat_ticks (q := q) hf rfl hq
  exact this.trans (Nat.mul_le_mul hk (Nat.pow_le_pow_right (by omega) hd))

/-- Opening parentheses in the rest of the text. -/
def parens (c : Cursor) : Nat := c.rest.countP fun s => s.rune = '('

theorem parens_adv {c' : Cursor} {t : List Sym} (h : Adv c t c') :
    parens c = (t.countP fun s => s.rune = '(') + parens c' := by
  unfold parens
  rw [h.rest, List.countP_append]

theorem run_parens {c' : Cursor} (h : Run E e c k (some c')) : parens c' ≤ parens c := by
  obtain ⟨t, ht⟩ := run_adv h
  rw [parens_adv ht]
  omega

/-- The rest of the text starts with an opening parenthesis. -/
def Opens (c : Cursor) : Prop := ∃ s u, c.rest = s :: u ∧ s.rune = '('

theorem Opens.pos (h : Opens c) : 1 ≤ parens c := by
  obtain ⟨s, u, h, hs⟩ := h
  unfold parens
  rw [h, List.countP_cons_of_pos (by simpa using hs)]
  omega

theorem Opens.reads {c' : Cursor} {t : List Sym} (h : Opens c) (ha : Adv c t c')
    (ht : c'.rest.length < c.rest.length) : parens c' < parens c := by
  obtain ⟨s, u, h, hs⟩ := h
  have hr := ha.rest
  cases t with
  | nil => rw [hr] at ht; simp at ht
  | cons x t =>
    rw [h] at hr
    simp only [List.cons_append, List.cons.injEq] at hr
    obtain ⟨rfl, -⟩ := hr
    rw [parens_adv ha, List.countP_cons_of_pos (by simpa using hs)]
    omega

theorem litLoop_runes {s : Str} {c c' : Cursor} {l : List Ev} (h : litLoop E false s c = (l, some c')) :
    ∃ t, Adv c t c' ∧ t.map Sym.rune = s := by
  induction s generalizing c l with
  | nil => cases h; exact ⟨[], .refl _, rfl⟩
  | cons w ws ih =>
    unfold litLoop at h
    split at h
    · cases h
    · rename_i x u hr
      by_cases hw : x.rune = w
      · simp only [Bool.false_eq_true, if_false, if_pos hw] at h
        rcases h2 : litLoop E false ws c.next with ⟨l2, o2⟩
        rw [h2] at h
        cases h
        obtain ⟨t, ht, hm⟩ := ih h2
        exact ⟨x :: t, .step hr ht, by simp [hm, hw]⟩
      · simp only [Bool.false_eq_true, if_false, if_neg hw] at h
        cases h

theorem run_lit {s w : Str} {c' : Cursor} (h : Run E (.lit s false w) c k (some c')) :
    ∃ t, Adv c t c' ∧ t.map Sym.rune = s := by
  obtain ⟨fr, l, r, h, -, hr⟩ := h
  cases h with
  | lit_ok h => cases hr; exact litLoop_runes h
  | lit_fail h => cases hr

theorem run_opt (h : Run E (.opt e) c k o) :
    ∃ k' o', k = k' + 1 ∧ Run0 E e c k' o' ∧ (o = o' ∨ o' = none ∧ o = some c) := by
  obtain ⟨fr, l, r, h, rfl, rfl⟩ := h
  cases h with
  | opt_ok h => exact ⟨_, _, ticks_cons _, ⟨_, _, h, rfl, rfl⟩, .inl rfl⟩
  | opt_none h =>
    have hb := h.fail_back
    subst hb
    exact ⟨_, _, ticks_cons _, ⟨_, _, h, rfl, rfl⟩, .inr ⟨rfl, rfl⟩⟩
  | opt_panic h => exact ⟨_, _, ticks_cons _, ⟨_, _, h, rfl, rfl⟩, .inl rfl⟩

theorem rep_cls {ctx : Ctx} {j : Job} {l : List Ev} {r : Res} (h : Big E ctx j c l r)
    {fr : VFrame} {chars : List Char} {w : Str} {one : Bool} {acc : List PV}
    (hj : j = .rep fr (.cls chars [] false false w) one acc) {c' : Cursor} (hr : r.fin = some c') :
    ∃ t, Adv c t c' ∧ ∀ s ∈ t, s.rune ∈ chars := by
  induction h generalizing acc with
  | rep_next h1 h2 ih1 ih2 =>
    cases hj
    cases h1 with
    | cls_ok hr1 hm =>
      obtain ⟨t, ht, hs⟩ := ih2 rfl hr
      refine ⟨_ :: t, .step hr1 ht, ?_⟩
      intro s hmem
      rcases List.mem_cons.1 hmem with rfl | hmem
      · simpa [clsMatch] using hm
      · exact hs s hmem
  | rep_stop h1 hc ih =>
    cases hj
    have hb := h1.fail_back
    subst hb
    cases hr
    exact ⟨[], .refl _, by simp⟩
  | rep_fail => cases hr
  | rep_panic => cases hr
  | _ => cases hj

theorem run_space {c' : Cursor} (h : Run E (.rule .space) c k (some c')) :
    ∃ t, Adv c t c' ∧ ∀ s ∈ t, s.rune ∈ [' ', '\n', '\t', '\r'] := by
  obtain ⟨k', -, l, r, h, -, hr⟩ := run_rule h
  dsimp only [grammar] at h
  cases h with
  | plus h => exact rep_cls h rfl hr

/-- What the negation sign reads. -/
theorem run_logicalNOT {c' : Cursor} (h : Run E (.rule .logicalNOT) c k (some c')) :
    ∃ t, Adv c t c' ∧ t ≠ [] ∧ ∀ s ∈ t, s.rune ∉ ['.', ':', '"', '('] := by
  obtain ⟨k', -, h⟩ := run_rule h
  obtain ⟨k', -, h⟩ := run_choice h
  obtain ⟨k1, o1, h1, h⟩ := runAlt_cons h
  have key : ∀ {t u : List Sym} {c1 : Cursor}, Adv c t c1 → Adv c1 u c' →
      (∀ s ∈ u, s.rune ∈ [' ', '\n', '\t', '\r']) → (t.map Sym.rune = ['N', 'O', 'T'] ∨ t.map Sym.rune = ['!']) →
      ∃ t, Adv c t c' ∧ t ≠ [] ∧ ∀ s ∈ t, s.rune ∉ ['.', ':', '"', '('] := by
    intro t u c1 ht hu hs hm
    refine ⟨t ++ u, ht.trans hu, ?_, ?_⟩
    · intro he
      rw [List.append_eq_nil_iff] at he
      rw [he.1] at hm
      simp at hm
    · intro s hmem
      rcases List.mem_append.1 hmem with hmem | hmem
      · have := List.mem_map_of_mem (f := Sym.rune) hmem
        rcases hm with hm | hm
        · rw [hm] at this
          simp only [List.mem_cons, List.not_mem_nil, or_false] at this
          rcases this with h | h | h <;> rw [h] <;> decide
        · rw [hm] at this
          simp only [List.mem_cons, List.not_mem_nil, or_false] at this
          rw [this]; decide
      · have := hs s hmem
        simp only [List.mem_cons, List.not_mem_nil, or_false] at this
        rcases this with h | h | h | h <;> rw [h] <;> decide
  rcases h with ⟨rfl, -⟩ | ⟨-, k2, h, -⟩
  · obtain ⟨k', -, h⟩ := run_seq h1
    obtain ⟨k1, o1, h1, h⟩ := runSeq_cons h
    rcases h with ⟨-, h, -⟩ | ⟨c1, k2, rfl, h, -⟩
    · cases h
    obtain ⟨t, ht, hm⟩ := run_lit h1
    obtain ⟨k1, o1, h1, h⟩ := runSeq_cons h
    rcases h with ⟨-, h, -⟩ | ⟨c2, k2, rfl, h, -⟩
    · cases h
    obtain ⟨-, h⟩ := runSeq_nil h
    cases h
    obtain ⟨u, hu, hs⟩ := run_space h1
    exact key ht hu hs (.inl hm)
  · obtain ⟨k1, o1, h1, h⟩ := runAlt_cons h
    rcases h with ⟨rfl, -⟩ | ⟨-, k2, h, -⟩
    · obtain ⟨k', -, h⟩ := run_seq h1
      obtain ⟨k1, o1, h1, h⟩ := runSeq_cons h
      rcases h with ⟨-, h, -⟩ | ⟨c1, k2, rfl, h, -⟩
      · cases h
      obtain ⟨t, ht, hm⟩ := run_lit h1
      obtain ⟨k1, o1, h1, h⟩ := runSeq_cons h
      rcases h with ⟨-, h, -⟩ | ⟨c2, k2, rfl, h, -⟩
      · cases h
      obtain ⟨-, h⟩ := runSeq_nil h
      cases h
      obtain ⟨k1, o1, -, h1, h⟩ := run_opt h1
      rcases h with rfl | ⟨-, h⟩
      · obtain ⟨u, hu, hs⟩ := run_space h1.run
        exact key ht hu hs (.inr hm)
      · cases h
        exact key ht (.refl _) (by simp) (.inr hm)
    · cases (runAlt_nil h).2

/-- The first symbol of the conjunction and disjunction signs. -/
theorem and_or_differ {k1 k2 : Nat} {c1 c2 : Cursor} (h1 : Run E (.rule .logicalAND) c k1 (some c1))
    (h2 : Run E (.rule .logicalOR) c k2 (some c2)) : False := by
  obtain ⟨k', -, h1⟩ := run_rule h1
  obtain ⟨k', -, h2⟩ := run_rule h2
  obtain ⟨t, ht, hm⟩ := run_lit h1.run
  obtain ⟨u, hu, hn⟩ := run_lit h2.run
  cases ht with
  | refl => simp at hm
  | step ht _ =>
    cases hu with
    | refl => simp at hn
    | step hu _ =>
      rw [ht] at hu
      cases hu
      simp only [List.map_cons, List.cons.injEq] at hm hn
      rw [hm.1] at hn
      simp at hn

/-- Bound for one pass over the text by the rules that are not recursive. -/
def pass (q : Nat) : Nat := 1100 * q ^ 2

theorem pass_pos {q : Nat} (h : c.rest.length + 1 ≤ q) : 1100 ≤ pass q := by
  have : 1 ≤ q ^ 2 := Nat.pow_pos (by omega)
  unfold pass
  omega

theorem run_le {c' : Cursor} (h : Run E e c k (some c')) : c'.rest.length ≤ c.rest.length := by
  obtain ⟨t, h⟩ := run_adv h
  exact h.length_le

/-- A conjunction sign follows. -/
def AndFollows (E : Env) (c : Cursor) : Prop :=
  ∃ n2 n3 c2 c3, Run E (.rule .space) c n2 (some c2) ∧ Run E (.rule .logicalAND) c2 n3 (some c3)

/-- A disjunction sign follows. -/
def OrFollows (E : Env) (c : Cursor) : Prop :=
  ∃ n2 n3 c2 c3, Run E (.rule .space) c n2 (some c2) ∧ Run E (.rule .logicalOR) c2 n3 (some c3)

/-- What follows white space is determined. -/
theorem ws_then {c1 c2 : Cursor} {t t' u u' : List Sym} {x y : Sym} (h : Adv c t c1) (h' : Adv c t' c2)
    (ht : ∀ s ∈ t, s.rune ∈ [' ', '\n', '\t', '\r']) (ht' : ∀ s ∈ t', s.rune ∈ [' ', '\n', '\t', '\r'])
    (hx : c1.rest = x :: u) (hy : c2.rest = y :: u') (nx : x.rune ∉ [' ', '\n', '\t', '\r'])
    (ny : y.rune ∉ [' ', '\n', '\t', '\r']) : x = y := by
  have he := h.rest
  rw [h'.rest, hx, hy] at he
  rcases List.append_eq_append_iff.1 he with ⟨v, hv, he⟩ | ⟨v, hv, he⟩ <;> rcases v with _ | ⟨z, v⟩
  · cases he; rfl
  · cases he
    exact absurd (ht y (by rw [hv]; simp)) ny
  · cases he; rfl
  · cases he
    exact absurd (ht' x (by rw [hv]; simp)) nx

theorem lit_head {s w : Str} {x : Char} {c' : Cursor} (h : Run E (.lit (x :: s) false w) c k (some c')) :
    ∃ y u, c.rest = y :: u ∧ y.rune = x := by
  obtain ⟨t, ht, hm⟩ := run_lit h
  cases ht with
  | refl => simp at hm
  | step hr _ =>
    simp only [List.map_cons, List.cons.injEq] at hm
    exact ⟨_, _, hr, hm.1⟩

theorem run_ws {c' : Cursor} (h : Run E (.rule .ws) c k (some c')) :
    ∃ t, Adv c t c' ∧ ∀ s ∈ t, s.rune ∈ [' ', '\n', '\t', '\r'] := by
  obtain ⟨k', -, l, r, h, -, hr⟩ := run_rule h
  dsimp only [grammar] at h
  cases h with
  | star h => exact rep_cls h rfl hr

/-- Neither sign follows where white space and a closing parenthesis do. -/
theorem closes_no_sign {n1 n2 : Nat} {w : Str} {c1 c2 : Cursor} (h1 : Run E (.rule .ws) c n1 (some c1))
    (h2 : Run E (.lit [')'] false w) c1 n2 (some c2)) : ¬ AndFollows E c ∧ ¬ OrFollows E c := by
  obtain ⟨t, ht, hs⟩ := run_ws h1
  obtain ⟨x, u, hx, he⟩ := lit_head h2
  constructor
  · rintro ⟨m2, m3, d2, d3, g2, g3⟩
    obtain ⟨t', ht', hs'⟩ := run_space g2
    obtain ⟨k', -, g3⟩ := run_rule g3
    obtain ⟨y, u', hy, he'⟩ := lit_head g3.run
    have := ws_then ht ht' hs hs' hx hy (by rw [he]; decide) (by rw [he']; decide)
    rw [this, he'] at he
    exact absurd he (by decide)
  · rintro ⟨m2, m3, d2, d3, g2, g3⟩
    obtain ⟨t', ht', hs'⟩ := run_space g2
    obtain ⟨k', -, g3⟩ := run_rule g3
    obtain ⟨y, u', hy, he'⟩ := lit_head g3.run
    have := ws_then ht ht' hs hs' hx hy (by rw [he]; decide) (by rw [he']; decide)
    rw [this, he'] at he
    exact absurd he (by decide)

/-- An opening parenthesis comes before any dot, colon and quote. -/
def Stuck (c : Cursor) : Prop :=
  ∃ u x w, c.rest = u ++ x :: w ∧ x.rune = '(' ∧ ∀ s ∈ u, s.rune ∉ ['.', ':', '"', '(']

theorem Opens.stuck (h : Opens c) : Stuck c := by
  obtain ⟨s, u, h, hs⟩ := h
  exact ⟨[], s, u, h, hs, by simp⟩

theorem Stuck.head {s : Sym} {u : List Sym} (h : Stuck c) (hr : c.rest = s :: u) :
    s.rune ≠ '.' ∧ s.rune ≠ ':' ∧ s.rune ≠ '"' := by
  obtain ⟨v, x, w, h, hx, hv⟩ := h
  rw [h] at hr
  rcases v with _ | ⟨y, v⟩
  · cases hr
    rw [hx]; decide
  · cases hr
    have := hv s (by simp)
    simp only [List.mem_cons, List.not_mem_nil, or_false, not_or] at this
    exact ⟨this.1, this.2.1, this.2.2.1⟩

theorem Stuck.adv {c' : Cursor} {t : List Sym} (h : Stuck c) (ha : Adv c t c') (ht : ∀ s ∈ t, s.rune ≠ '(') :
    Stuck c' := by
  obtain ⟨u, x, w, h, hx, hu⟩ := h
  have he := ha.rest
  rw [h] at he
  rcases List.append_eq_append_iff.1 he with ⟨a, hv, he⟩ | ⟨a, hv, he⟩
  · rcases a with _ | ⟨z, a⟩
    · exact ⟨[], x, w, he.symm, hx, by simp⟩
    · cases he
      exact absurd hx (ht x (by rw [hv]; simp))
  · exact ⟨a, x, w, he, hx, fun s hs => hu s (by rw [hv]; simp [hs])⟩

theorem rep_cls_ne {ctx : Ctx} {j : Job} {l : List Ev} {r : Res} (h : Big E ctx j c l r)
    {fr : VFrame} {chars : List Char} {rs : List (Char × Char)} {i : Bool} {w : Str} {one : Bool} {acc : List PV}
    (hj : j = .rep fr (.cls chars rs i false w) one acc) {c' : Cursor} (hr : r.fin = some c') :
    ∃ t, Adv c t c' ∧ ∀ s ∈ t, clsMatch E chars rs i false s.rune = true := by
  induction h generalizing acc with
  | rep_next h1 h2 ih1 ih2 =>
    cases hj
    cases h1 with
    | cls_ok hr1 hm =>
      obtain ⟨t, ht, hs⟩ := ih2 rfl hr
      refine ⟨_ :: t, .step hr1 ht, ?_⟩
      intro s hmem
      rcases List.mem_cons.1 hmem with rfl | hmem
      · exact hm
      · exact hs s hmem
  | rep_stop h1 hc ih =>
    cases hj
    have hb := h1.fail_back
    subst hb
    cases hr
    exact ⟨[], .refl _, by simp⟩
  | rep_fail => cases hr
  | rep_panic => cases hr
  | _ => cases hj

theorem quoted_begins {c' : Cursor} (h : Run0 E (grammar .QuotedValue) c k (some c')) :
    ∃ y u, c.rest = y :: u ∧ y.rune = '"' := by
  obtain ⟨l, r, h, -, hr⟩ := h
  cases h with
  | recover h =>
    have hs : ∀ {ctx : Ctx} {st : Cursor} {es : List PExpr} {w : Str} {acc : List PV} {fr : VFrame} {l : List Ev} {r : Res},
        Big E ctx (.seq st (.lit ['"'] false w :: es) acc fr) c l r → ctx.inv = false → r.fin = some c' →
        ∃ y u, c.rest = y :: u ∧ y.rune = '"' := by
      intro ctx st es w acc fr l r h hi hr
      cases h with
      | seq_cons h1 h2 =>
        cases h1 with
        | lit_ok h =>
          obtain ⟨i, rec⟩ := ctx
          cases hi
          obtain ⟨t, ht, hm⟩ := litLoop_runes h
          cases ht with
          | refl => simp at hm
          | step hr _ =>
            simp only [List.map_cons, List.cons.injEq] at hm
            exact ⟨_, _, hr, hm.1⟩
      | seq_fail h1 => cases hr
      | seq_panic h1 => cases hr
    cases h with
    | action_ok h => cases h with | seq h => exact hs h rfl hr
    | action_err h => cases h with | seq h => exact hs h rfl hr
    | action_panic h => cases hr
    | action_stop h => cases h with | seq h => exact hs h rfl hr

theorem piece_stuck {c' : Cursor} (h : Run E (.rule .FieldPiece) c k (some c')) (hst : Stuck c) : Stuck c' := by
  obtain ⟨k', -, h⟩ := run_rule h
  obtain ⟨k', -, h⟩ := run_choice h
  obtain ⟨k1, o1, h1, h⟩ := runAlt_cons h
  rcases h with ⟨rfl, -⟩ | ⟨-, k2, h, -⟩
  · exfalso
    obtain ⟨k', -, h1⟩ := run_rule h1.run
    obtain ⟨k', o', -, h1, ho⟩ := run_action h1
    rcases ho with rfl | ho
    · obtain ⟨k', -, h1⟩ := run_label h1.run
      obtain ⟨k', -, h1⟩ := run_rule h1.run
      obtain ⟨x, u, hx, he⟩ := quoted_begins h1
      exact (hst.head hx).2.2 he
    · cases ho
  obtain ⟨k1, o1, h1, h⟩ := runAlt_cons h
  rcases h with ⟨rfl, -⟩ | ⟨-, k2, h, -⟩
  · obtain ⟨k', -, h1⟩ := run_rule h1.run
    obtain ⟨k', o', -, h1, ho⟩ := run_action h1
    rcases ho with rfl | ho
    · obtain ⟨l, r, h1, -, hr⟩ := h1
      cases h1 with
      | plus h1 =>
        obtain ⟨t, ht, hs⟩ := rep_cls_ne h1 rfl hr
        refine hst.adv ht fun s hmem he => ?_
        have := hs s hmem
        rw [he] at this
        unfold clsMatch at this
        rw [if_pos rfl, goLower_ascii (by decide)] at this
        exact absurd this (by decide)
    · cases ho
  obtain ⟨k1, o1, h1, h⟩ := runAlt_cons h
  rcases h with ⟨rfl, -⟩ | ⟨-, k2, h, -⟩
  · obtain ⟨k', -, h1⟩ := run_rule h1.run
    obtain ⟨k', o', -, h1, ho⟩ := run_action h1
    rcases ho with rfl | ho
    · obtain ⟨t, ht, hm⟩ := run_lit h1.run
      refine hst.adv ht fun s hmem he => ?_
      have := List.mem_map_of_mem (f := Sym.rune) hmem
      rw [hm, he] at this
      exact absurd this (by decide)
    · cases ho
  · cases (runAlt_nil h).2

theorem run_star {c' : Cursor} (h : Run E (.star e) c k (some c')) : c' = c ∨ ∃ k1 c1, Run0 E e c k1 (some c1) := by
  obtain ⟨fr, l, r, h, -, hr⟩ := h
  cases h with
  | star h =>
    cases h with
    | rep_next h1 h2 => exact .inr ⟨_, _, _, _, h1, rfl, rfl⟩
    | rep_stop h1 hc =>
      have hb := h1.fail_back
      subst hb
      cases hr
      exact .inl rfl
    | rep_panic => cases hr

/-- No field with a colon after it begins there. -/
theorem stuck_no_field {w : Str} {x : PLabel} {a : Act} {c' : Cursor}
    (h : Run0 E (.action a (.seq (.label x (.rule .Field) :: .rule .ws :: .lit [':'] false w :: es))) c k (some c'))
    (hst : Stuck c) : False := by
  obtain ⟨k', o', -, h, ho⟩ := run_action h
  rcases ho with rfl | ho
  · obtain ⟨k', -, h⟩ := run_seq h
    obtain ⟨k1, o1, h1, h⟩ := runSeq_cons h
    rcases h with ⟨-, h, -⟩ | ⟨c1, k2, rfl, h, -⟩
    · cases h
    have hst1 : Stuck c1 := by
      obtain ⟨k', -, h1⟩ := run_label h1
      obtain ⟨k', -, h1⟩ := run_rule h1.run
      obtain ⟨k', o', -, h1, ho⟩ := run_action h1
      rcases ho with rfl | ho
      · obtain ⟨k', -, h1⟩ := run_label h1.run
        obtain ⟨k', -, h1⟩ := run_seq h1
        obtain ⟨k3, o3, h3, h1⟩ := runSeq_cons h1
        rcases h1 with ⟨-, h1, -⟩ | ⟨c3, k4, rfl, h1, -⟩
        · cases h1
        have hst3 := piece_stuck h3 hst
        obtain ⟨k5, o5, h5, h1⟩ := runSeq_cons h1
        rcases h1 with ⟨-, h1, -⟩ | ⟨c5, k6, rfl, h1, -⟩
        · cases h1
        obtain ⟨-, h1⟩ := runSeq_nil h1
        cases h1
        rcases run_star h5 with rfl | ⟨k7, c7, h7⟩
        · exact hst3
        · obtain ⟨k', -, h7⟩ := run_seq h7
          obtain ⟨k8, o8, h8, h7⟩ := runSeq_cons h7
          rcases h7 with ⟨-, h7, -⟩ | ⟨c8, k9, rfl, h7, -⟩
          · cases h7
          · obtain ⟨y, u, hy, he⟩ := lit_head h8
            exact absurd he (hst3.head hy).1
      · cases ho
    obtain ⟨k3, o3, h3, h⟩ := runSeq_cons h
    rcases h with ⟨-, h, -⟩ | ⟨c3, k4, rfl, h, -⟩
    · cases h
    obtain ⟨t, ht, hs⟩ := run_ws h3
    have hst3 : Stuck c3 := hst1.adv ht fun s hmem he => by
      have := hs s hmem
      rw [he] at this
      exact absurd this (by decide)
    obtain ⟨k5, o5, h5, h⟩ := runSeq_cons h
    rcases h with ⟨-, h, -⟩ | ⟨c5, k6, rfl, h, -⟩
    · cases h
    obtain ⟨y, u, hy, he⟩ := lit_head h5
    exact (hst3.head hy).2.1 he
  · cases ho

/-- A comparison that starts where a parenthesis comes first is a clause between parentheses. -/
theorem cmp_stuck {c' : Cursor} (h : Run0 E (grammar .Comparison) c k (some c')) (hst : Stuck c) : Opens c := by
  obtain ⟨k0, rfl, h'⟩ := run_choice h
  clear h; rename' h' => h
  obtain ⟨k1, o1, h1', h'⟩ := runAlt_cons h
  clear h; rename' h1' => h1, h' => h
  rcases h with ⟨rfl, -⟩ | ⟨-, k2, h, -⟩
  · obtain ⟨k2, o2, rfl, h1', ho⟩ := run_action h1
    clear h1; rename' h1' => h1
    obtain ⟨k3, rfl, h1'⟩ := run_seq h1
    clear h1; rename' h1' => h1
    obtain ⟨k4, o4, h4', h1'⟩ := runSeq_cons h1
    clear h1; rename' h4' => h4, h1' => h1
    rcases h1 with ⟨-, rfl, -⟩ | ⟨c1, k5, rfl, h1, rfl⟩
    · rcases ho with ho | ho <;> cases ho
    exact lit_head h4
  · exfalso
    obtain ⟨k3, o3, h3', h'⟩ := runAlt_cons h
    clear h; rename' h3' => h3, h' => h
    rcases h with ⟨rfl, -⟩ | ⟨-, k4, h, -⟩
    · exact stuck_no_field h3 hst
    · obtain ⟨k5, o5, h5', h'⟩ := runAlt_cons h
      clear h; rename' h5' => h5, h' => h
      rcases h with ⟨rfl, -⟩ | ⟨-, k6, h, -⟩
      · exact stuck_no_field h5 hst
      · cases (runAlt_nil h).2

/-- Cost of a comparison: at most one clause between parentheses, and where that ends neither a
conjunction nor a disjunction sign follows. -/
theorem cmp_cost {q : Nat} (h : Run0 E (grammar .Comparison) c k o) (hq : c.rest.length + 1 ≤ q) :
    k ≤ 5 * pass q ∨ (Opens c ∧ ∃ c2 k2 o2, (∃ c1 m1 m2 w, Run E (.lit ['('] false w) c m1 (some c1) ∧
        Run E (.rule .ws) c1 m2 (some c2)) ∧ Run0 E (grammar .OrClause) c2 k2 o2 ∧
      c2.rest.length < c.rest.length ∧ parens c2 < parens c ∧ k ≤ 5 * pass q + k2 ∧
      ∀ c', o = some c' → ∃ c3, o2 = some c3 ∧ parens c' ≤ parens c3 ∧ ¬ AndFollows E c3 ∧ ¬ OrFollows E c3) := by
  have hP := pass_pos hq
  obtain ⟨k0, rfl, h'⟩ := run_choice h
  clear h; rename' h' => h
  obtain ⟨k1, o1, h1', h'⟩ := runAlt_cons h
  clear h; rename' h1' => h1, h' => h
  have hrest : k0 ≤ k1 + 2 * pass q ∧ ∀ c', Opens c → o = some c' → o1 = some c' := by
    rcases h with ⟨rfl, rfl⟩ | ⟨-, k2, h, rfl⟩
    · exact ⟨by omega, fun _ _ h => h⟩
    · obtain ⟨k3, o3, h3', h'⟩ := runAlt_cons h
      clear h; rename' h3' => h3, h' => h
      have b3 : k3 ≤ pass q := run_flat h3.run (by decide) hq
      rcases h with ⟨rfl, rfl⟩ | ⟨-, k4, h, rfl⟩
      · refine ⟨by omega, ?_⟩
        rintro c' hop rfl
        exact (stuck_no_field h3 hop.stuck).elim
      · obtain ⟨k5, o5, h5', h'⟩ := runAlt_cons h
        clear h; rename' h5' => h5, h' => h
        have b5 : k5 ≤ pass q := run_flat h5.run (by decide) hq
        rcases h with ⟨rfl, rfl⟩ | ⟨-, k6, h, rfl⟩
        · refine ⟨by omega, ?_⟩
          rintro c' hop rfl
          exact (stuck_no_field h5 hop.stuck).elim
        · obtain ⟨rfl, rfl⟩ := runAlt_nil h
          refine ⟨by omega, ?_⟩
          rintro c' hop h
          cases h
  obtain ⟨hrest, hout⟩ := hrest
  clear h
  obtain ⟨k2, o2, rfl, h1', ho⟩ := run_action h1
  clear h1; rename' h1' => h1
  obtain ⟨k3, rfl, h1'⟩ := run_seq h1
  clear h1; rename' h1' => h1
  obtain ⟨k4, o4, h4', h1'⟩ := runSeq_cons h1
  clear h1; rename' h4' => h4, h1' => h1
  have b4 : k4 ≤ 1 := by
    obtain ⟨fr, l, r, h4, rfl, -⟩ := h4
    cases h4 with
    | lit_ok h => rw [ticks_cons, ticks_append, ticks_litLoop h, ticks_mark]
    | lit_fail h => rw [ticks_cons, ticks_append, ticks_litLoop h, ticks_mark]
  rcases h1 with ⟨-, -, rfl⟩ | ⟨c1, k5, rfl, h1, rfl⟩
  · left; omega
  have hop : Opens c := lit_head h4
  obtain ⟨t, ht, hm⟩ := run_lit h4
  have hlt : c1.rest.length < c.rest.length := run_reads h4 rfl
  have hpar := hop.reads ht hlt
  -- a success is one of the sequence
  have hseq : ∀ c', o = some c' → o2 = some c' := by
    intro c' hc'
    have h1 := hout c' hop hc'
    subst h1
    rcases ho with ho | ho
    · exact ho.symm
    · cases ho
  obtain ⟨k6, o6, h6', h1'⟩ := runSeq_cons h1
  clear h1; rename' h6' => h6, h1' => h1
  have b6 : k6 ≤ pass q := run_flat h6 (by decide) (by omega)
  rcases h1 with ⟨-, -, rfl⟩ | ⟨c2, k7, rfl, h1, rfl⟩
  · left; omega
  have hle := run_le h6
  have hpl := run_parens h6
  obtain ⟨k8, o8, h8', h1'⟩ := runSeq_cons h1
  clear h1; rename' h8' => h8, h1' => h1
  have hle8 : ∀ c3, o8 = some c3 → c3.rest.length ≤ c2.rest.length := by
    rintro c3 rfl
    exact run_le h8
  obtain ⟨k9, rfl, h8'⟩ := run_label h8
  clear h8; rename' h8' => h8
  obtain ⟨k9, rfl, h8'⟩ := run_rule h8.run
  clear h8; rename' h8' => h8
  right
  refine ⟨hop, c2, k9, o8, ⟨c1, _, _, _, h4, h6⟩, h8, by omega, by omega, ?_⟩
  rcases h1 with ⟨-, rfl, rfl⟩ | ⟨c3, k10, rfl, h1, rfl⟩
  · exact ⟨by omega, fun c' hc' => by cases hseq c' hc'⟩
  have hle8 := hle8 _ rfl
  obtain ⟨k11, o11, h11', h1'⟩ := runSeq_cons h1
  clear h1; rename' h11' => h11, h1' => h1
  have b11 : k11 ≤ pass q := run_flat h11 (by decide) (by omega)
  rcases h1 with ⟨-, rfl, rfl⟩ | ⟨c4, k12, rfl, h1, rfl⟩
  · exact ⟨by omega, fun c' hc' => by cases hseq c' hc'⟩
  have hle11 := run_le h11
  obtain ⟨k13, o13, h13', h1'⟩ := runSeq_cons h1
  clear h1; rename' h13' => h13, h1' => h1
  have b13 : k13 ≤ 1 := by
    obtain ⟨fr, l, r, h13, rfl, -⟩ := h13
    cases h13 with
    | lit_ok h => rw [ticks_cons, ticks_append, ticks_litLoop h, ticks_mark]
    | lit_fail h => rw [ticks_cons, ticks_append, ticks_litLoop h, ticks_mark]
  rcases h1 with ⟨-, rfl, rfl⟩ | ⟨c5, k14, rfl, h1, rfl⟩
  · exact ⟨by omega, fun c' hc' => by cases hseq c' hc'⟩
  · obtain ⟨rfl, rfl⟩ := runSeq_nil h1
    refine ⟨by omega, fun c' hc' => ⟨c3, rfl, ?_, closes_no_sign h11 h13⟩⟩
    cases hseq c' hc'
    exact (run_parens h13).trans (run_parens h11)

/-- The cost that the parentheses of a text add: each one multiplies by four. -/
def sg (B : Nat) : Nat → Nat
  | 0 => 0
  | p + 1 => B + 4 * sg B p

theorem sg_succ (B p : Nat) : sg B (p + 1) = B + 4 * sg B p := rfl

theorem sg_mono {B p p' : Nat} (h : p ≤ p') : sg B p ≤ sg B p' := by
  induction h with
  | refl => exact Nat.le_refl _
  | step h ih => rw [Nat.succ_eq_add_one, sg_succ]; omega

theorem sg_pow (B p : Nat) : B + 3 * sg B p = B * 4 ^ p := by
  induction p with
  | zero => simp [sg]
  | succ p ih =>
    rw [sg_succ, Nat.pow_succ, ← Nat.mul_assoc, ← ih]
    omega

/-- What is shown of a clause: its cost, and where it succeeds what the parentheses after it have left. -/
def OrBound (E : Env) (B : Nat) (c : Cursor) (k : Nat) (o : Option Cursor) : Prop :=
  k ≤ B + 4 * sg B (parens c) ∧
    ∀ c', o = some c' → k + 4 * sg B (parens c') ≤ B + 4 * sg B (parens c) ∨ AndFollows E c' ∨ OrFollows E c'

/-- A comparison in terms of `sg`. -/
theorem cmp_sg {q B : Nat} (h : Run0 E (grammar .Comparison) c k o) (hq : c.rest.length + 1 ≤ q)
    (ih : ∀ c2 k2 o2, Run0 E (grammar .OrClause) c2 k2 o2 → c2.rest.length < c.rest.length →
      OrBound E B c2 k2 o2) :
    (k ≤ 5 * pass q ∨ Opens c) ∧ k ≤ 5 * pass q + sg B (parens c) ∧
      ∀ c', o = some c' → k + sg B (parens c') ≤ 5 * pass q + sg B (parens c) := by
  rcases cmp_cost h hq with hb | ⟨hop, c2, k2, o2, -, h2, hl, hp, hk, hs⟩
  · refine ⟨.inl hb, by omega, ?_⟩
    rintro c' rfl
    have := sg_mono (B := B) (run_parens h.run)
    omega
  · obtain ⟨b, s⟩ := ih c2 k2 o2 h2 hl
    have he := sg_succ B (parens c - 1)
    rw [Nat.sub_add_cancel hop.pos] at he
    have hm := sg_mono (B := B) (show parens c2 ≤ parens c - 1 by omega)
    refine ⟨.inr hop, by omega, ?_⟩
    intro c' hc'
    obtain ⟨c3, rfl, hp3, na, no⟩ := hs c' hc'
    rcases s c3 rfl with s | s | s
    · have := sg_mono (B := B) hp3
      omega
    · exact (na s).elim
    · exact (no s).elim

/-- A negation in terms of `sg`: parentheses are entered at most once. -/
theorem not_sg {q B : Nat} (h : Run0 E (grammar .NotClause) c k o) (hq : c.rest.length + 1 ≤ q)
    (ih : ∀ c2 k2 o2, Run0 E (grammar .OrClause) c2 k2 o2 → c2.rest.length < c.rest.length →
      OrBound E B c2 k2 o2) :
    k ≤ 20 * pass q + sg B (parens c) ∧
      ∀ c', o = some c' → k + sg B (parens c') ≤ 20 * pass q + sg B (parens c) := by
  have hP := pass_pos hq
  obtain ⟨k0, rfl, h'⟩ := run_choice h
  clear h; rename' h' => h
  obtain ⟨k1, o1, h1', h'⟩ := runAlt_cons h
  clear h; rename' h1' => h1, h' => h
  obtain ⟨k2, o2, rfl, h1', ho⟩ := run_action h1
  clear h1; rename' h1' => h1
  obtain ⟨k3, rfl, h1'⟩ := run_seq h1
  clear h1; rename' h1' => h1
  obtain ⟨k4, o4, h4', h1'⟩ := runSeq_cons h1
  clear h1; rename' h4' => h4, h1' => h1
  have b4 : k4 ≤ pass q := run_flat h4 (by decide) hq
  have last : ∀ {k : Nat} {o : Option Cursor}, RunAlt E [.rule .Comparison] c k o →
      ∃ k', k = k' + 1 ∧ Run0 E (grammar .Comparison) c k' o := by
    intro k o h
    obtain ⟨k1, o1, h1', h'⟩ := runAlt_cons h
    clear h; rename' h1' => h1, h' => h
    obtain ⟨k', rfl, h1'⟩ := run_rule h1.run
    clear h1; rename' h1' => h1
    rcases h with ⟨rfl, rfl⟩ | ⟨rfl, k2, h, rfl⟩
    · exact ⟨_, rfl, h1⟩
    · obtain ⟨rfl, rfl⟩ := runAlt_nil h
      exact ⟨_, rfl, h1⟩
  rcases h1 with ⟨rfl, rfl, rfl⟩ | ⟨c1, k5, rfl, h1, rfl⟩
  · -- no negation sign
    have ho1 : o1 = none := by rcases ho with ho | ho <;> exact ho
    subst ho1
    rcases h with ⟨rfl, rfl⟩ | ⟨-, k2, h, rfl⟩
    · exact ⟨by omega, fun c' hc' => by cases hc'⟩
    · obtain ⟨k6, rfl, h'⟩ := last h
      obtain ⟨-, b, s⟩ := cmp_sg h' hq ih
      refine ⟨by omega, fun c' hc' => ?_⟩
      have := s c' hc'
      omega
  · obtain ⟨u, hu, hne, hs⟩ := run_logicalNOT h4
    have hlt : c1.rest.length < c.rest.length := run_reads h4 rfl
    have hpl := sg_mono (B := B) (run_parens h4)
    have hnop : ¬ Opens c := by
      rintro ⟨s, t, hr, hp⟩
      rw [hu.rest] at hr
      rcases u with _ | ⟨x, u⟩
      · exact hne rfl
      · cases hr
        exact absurd (List.mem_cons_of_mem _ (List.mem_cons_of_mem _ (List.mem_cons_of_mem _ (by rw [hp]; simp))))
          (hs s (by simp))
    obtain ⟨k6, o6, h6', h1'⟩ := runSeq_cons h1
    clear h1; rename' h6' => h6, h1' => h1
    obtain ⟨k7, rfl, h6'⟩ := run_label h6
    clear h6; rename' h6' => h6
    obtain ⟨k8, rfl, h6'⟩ := run_rule h6.run
    clear h6; rename' h6' => h6
    have hk : k5 = k8 + 1 + 1 ∧ o2 = o6 := by
      rcases h1 with ⟨rfl, rfl, rfl⟩ | ⟨c2, k9, rfl, h1, rfl⟩
      · exact ⟨rfl, rfl⟩
      · obtain ⟨rfl, rfl⟩ := runSeq_nil h1
        exact ⟨rfl, rfl⟩
    obtain ⟨rfl, rfl⟩ := hk
    obtain ⟨hc1, b8, s8⟩ := cmp_sg h6 (q := q) (B := B) (by omega)
      fun c2 k2 o2 a b => ih c2 k2 o2 a (by omega)
    rcases h with ⟨rfl, rfl⟩ | ⟨rfl, k9, h, rfl⟩
    · refine ⟨by omega, ?_⟩
      rintro c' rfl
      rcases ho with rfl | ho
      · have := s8 c' rfl
        omega
      · cases ho
    · -- the second alternative does not enter parentheses
      obtain ⟨k10, rfl, h'⟩ := last h
      clear h; rename' h' => h
      obtain ⟨hc, -, -⟩ := cmp_sg h hq ih
      have hc := hc.resolve_right hnop
      refine ⟨by omega, ?_⟩
      rintro c' rfl
      rcases hc1 with hc1 | hop
      · have := sg_mono (B := B) (run_parens h.run)
        omega
      · -- after the sign comes a parenthesis: the second alternative fails
        refine (hnop (cmp_stuck h ?_)).elim
        obtain ⟨x, w, hr, hx⟩ := hop
        exact ⟨u, x, w, by rw [hu.rest, hr], hx, hs⟩

/-- The shape shared by conjunctions and disjunctions. -/
theorem chain_inv {q : Nat} {A S op : Rule} {a : Act} {x y : PLabel}
    (h : Run0 E (.choice [.action a (.seq [.label x (.rule A), .rule .space, .rule op, .rule .space,
      .label y (.rule S)]), .rule A]) c k o)
    (hq : c.rest.length + 1 ≤ q) (hf : flatE (.rule op) = true) (hk : coef (.rule op) ≤ 1100)
    (hd : deg (.rule op) ≤ 2) (hn : nul (.rule op) = false) :
    ∃ k1 o1, Run0 E (grammar A) c k1 o1 ∧
      ((o = o1 ∨ o = none) ∧ k ≤ 2 * k1 + 4 * pass q ∨
        ∃ c1 c2 c3 c4 n2 n3 k5 o5, o1 = some c1 ∧ Run E (.rule .space) c1 n2 (some c2) ∧
          Run E (.rule op) c2 n3 (some c3) ∧ (∃ n4, Run E (.rule .space) c3 n4 (some c4)) ∧
          c4.rest.length < c1.rest.length ∧
          parens c4 ≤ parens c1 ∧ Run0 E (grammar S) c4 k5 o5 ∧
          (o = o5 ∧ k ≤ k1 + k5 + 4 * pass q ∨
            (o = some c1 ∨ o = none) ∧ k ≤ 2 * k1 + k5 + 4 * pass q)) := by
  have hP := pass_pos hq
  obtain ⟨k0, rfl, h'⟩ := run_choice h
  clear h; rename' h' => h
  obtain ⟨k1, o1, h1, h'⟩ := runAlt_cons h
  clear h; rename' h' => h
  obtain ⟨k2, o2, rfl, h1', ho⟩ := run_action h1
  clear h1; rename' h1' => h1
  obtain ⟨k3, rfl, h1'⟩ := run_seq h1
  clear h1; rename' h1' => h1
  obtain ⟨k4, o4, h4, h1'⟩ := runSeq_cons h1
  clear h1; rename' h1' => h1
  have hle4 : ∀ c1, o4 = some c1 → c1.rest.length ≤ c.rest.length := by
    rintro c1 rfl
    exact run_le h4
  obtain ⟨k5, rfl, h4'⟩ := run_label h4
  clear h4; rename' h4' => h4
  obtain ⟨k6, rfl, h4'⟩ := run_rule h4.run
  clear h4; rename' h4' => h4
  refine ⟨k6, o4, h4, ?_⟩
  -- the second alternative repeats the first operand
  have last : ∀ {k : Nat} {o : Option Cursor}, RunAlt E [.rule A] c k o → k = k6 + 1 ∧ o = o4 := by
    intro k o h
    obtain ⟨k1, o1, h1, h'⟩ := runAlt_cons h
    clear h; rename' h' => h
    obtain ⟨k', rfl, h1'⟩ := run_rule h1.run
    obtain ⟨rfl, rfl⟩ := run0_det h4 h1'
    rcases h with ⟨rfl, rfl⟩ | ⟨rfl, k2, h, rfl⟩
    · exact ⟨rfl, rfl⟩
    · obtain ⟨rfl, rfl⟩ := runAlt_nil h
      exact ⟨rfl, rfl⟩
  -- result when the sequence has ended with `o2` after `k3`
  have done : (o = o1 ∧ k0 = k3 + 1 + 1) ∨ (o = o4 ∧ k0 = k3 + 1 + 1 + (k6 + 1)) := by
    rcases h with ⟨rfl, rfl⟩ | ⟨-, k7, h, rfl⟩
    · exact .inl ⟨rfl, rfl⟩
    · obtain ⟨rfl, rfl⟩ := last h
      exact .inr ⟨rfl, rfl⟩
  clear h
  have short : o2 = none → k3 ≤ k6 + 2 + 3 * pass q →
      (o = o4 ∨ o = none) ∧ k0 + 1 ≤ 2 * k6 + 4 * pass q := by
    rintro rfl hk
    have ho1 : o1 = none := by rcases ho with ho | ho <;> exact ho
    subst ho1
    rcases done with ⟨rfl, rfl⟩ | ⟨rfl, rfl⟩
    · exact ⟨.inr rfl, by omega⟩
    · exact ⟨.inl rfl, by omega⟩
  rcases h1 with ⟨rfl, rfl, rfl⟩ | ⟨c1, k7, rfl, h1, rfl⟩
  · exact .inl (short rfl (by omega))
  have hle4 := hle4 _ rfl
  obtain ⟨k8, o8, h8, h1'⟩ := runSeq_cons h1
  clear h1; rename' h1' => h1
  have b8 : k8 ≤ pass q := run_flat h8 (by decide) (by omega)
  rcases h1 with ⟨-, rfl, rfl⟩ | ⟨c2, k9, rfl, h1, rfl⟩
  · exact .inl (short rfl (by omega))
  have hle8 := run_le h8
  obtain ⟨k10, o10, h10, h1'⟩ := runSeq_cons h1
  clear h1; rename' h1' => h1
  have b10 : k10 ≤ pass q := run_flat h10 hf (by omega) hk hd
  rcases h1 with ⟨-, rfl, rfl⟩ | ⟨c3, k11, rfl, h1, rfl⟩
  · exact .inl (short rfl (by omega))
  have hle10 := run_reads h10 hn
  obtain ⟨k12, o12, h12, h1'⟩ := runSeq_cons h1
  clear h1; rename' h1' => h1
  have b12 : k12 ≤ pass q := run_flat h12 (by decide) (by omega)
  rcases h1 with ⟨-, rfl, rfl⟩ | ⟨c4, k13, rfl, h1, rfl⟩
  · exact .inl (short rfl (by omega))
  have hle12 := run_le h12
  have p1 := run_parens h8
  have p2 := run_parens h10
  have p3 := run_parens h12
  obtain ⟨k14, o14, h14, h1'⟩ := runSeq_cons h1
  clear h1; rename' h1' => h1
  obtain ⟨k15, rfl, h14'⟩ := run_label h14
  clear h14; rename' h14' => h14
  obtain ⟨k16, rfl, h14'⟩ := run_rule h14.run
  clear h14; rename' h14' => h14
  have he : k13 = k16 + 1 + 1 ∧ o2 = o14 := by
    rcases h1 with ⟨rfl, rfl, rfl⟩ | ⟨c5, k9, rfl, h1, rfl⟩
    · exact ⟨rfl, rfl⟩
    · obtain ⟨rfl, rfl⟩ := runSeq_nil h1
      exact ⟨rfl, rfl⟩
  obtain ⟨rfl, rfl⟩ := he
  refine .inr ⟨c1, c2, c3, c4, k8, k10, k16, o2, rfl, h8, h10, ⟨_, h12⟩, by omega, by omega, h14, ?_⟩
  rcases done with ⟨rfl, rfl⟩ | ⟨rfl, rfl⟩
  · rcases ho with rfl | rfl
    · exact .inl ⟨rfl, by omega⟩
    · exact .inr ⟨.inr rfl, by omega⟩
  · exact .inr ⟨.inl rfl, by omega⟩

/-- Cost of a conjunction. -/
theorem and_cost {q B m : Nat} (hq : m + 1 ≤ q)
    (ih : ∀ c2 k2 o2, Run0 E (grammar .OrClause) c2 k2 o2 → c2.rest.length < m →
      OrBound E B c2 k2 o2) (n : Nat) :
    ∀ c : Cursor, c.rest.length = n → n ≤ m → ∀ k o, Run0 E (grammar .AndClause) c k o →
      k ≤ (n + 1) * (50 * pass q) + 2 * sg B (parens c) ∧
      ∀ c', o = some c' → k + c'.rest.length * (50 * pass q) + 2 * sg B (parens c') ≤
        n * (50 * pass q) + 2 * sg B (parens c) ∨ AndFollows E c' := by
  induction n using Nat.strong_induction_on with
  | _ n ihn =>
    intro c hc hm k o h
    have hP := pass_pos (c := c) (q := q) (by omega)
    obtain ⟨k1, o1, h1, hh⟩ := chain_inv h (q := q) (by omega) (by decide) (by decide) (by decide) rfl
    obtain ⟨b1, s1⟩ := not_sg h1 (q := q) (B := B) (by omega) fun c2 k2 o2 a b => ih c2 k2 o2 a (by omega)
    have hs0 : ∀ c', o1 = some c' → c'.rest.length + 1 ≤ n := by
      rintro c' rfl
      have := run_reads h1.run rfl
      omega
    generalize hA : 50 * pass q = A at *
    have hn1 : (n + 1) * A = n * A + A := by ring
    rcases hh with ⟨ho, hk⟩ | ⟨c1, c2, c3, c4, n2, n3, k5, o5, rfl, h2, h3, -, hlt, hpar, h5, hh⟩
    · refine ⟨by omega, ?_⟩
      rintro c' rfl
      rcases ho with rfl | ho
      · left
        have := s1 c' rfl
        have hl := Nat.mul_le_mul_right A (hs0 c' rfl)
        rw [Nat.add_mul, Nat.one_mul] at hl
        omega
      · cases ho
    · have hl1 := hs0 c1 rfl
      have := s1 c1 rfl
      have hsg := sg_mono (B := B) hpar
      obtain ⟨b5, s5⟩ := ihn c4.rest.length (by omega) c4 rfl (by omega) k5 o5 h5
      have hl := Nat.mul_le_mul_right A (show c4.rest.length + 1 + 1 ≤ n by omega)
      rw [Nat.add_mul, Nat.one_mul] at hl
      have hl4 : (c4.rest.length + 1) * A = c4.rest.length * A + A := by ring
      rcases hh with ⟨rfl, hk⟩ | ⟨ho, hk⟩
      · refine ⟨by omega, ?_⟩
        intro c' hc'
        rcases s5 c' hc' with s5 | s5
        · left; omega
        · exact .inr s5
      · refine ⟨by omega, ?_⟩
        rintro c' rfl
        rcases ho with ho | ho
        · cases ho
          exact .inr ⟨_, _, _, _, h2, h3⟩
        · cases ho

/-- Cost of a disjunction. -/
theorem or_cost {q B : Nat} (hB : B = q * (105 * pass q)) (n : Nat) :
    ∀ c : Cursor, c.rest.length = n → n + 1 ≤ q → ∀ k o, Run0 E (grammar .OrClause) c k o →
      k ≤ (n + 1) * (105 * pass q) + 4 * sg B (parens c) ∧
      ∀ c', o = some c' → k + 4 * sg B (parens c') ≤ (n + 1) * (105 * pass q) + 4 * sg B (parens c) ∨
        AndFollows E c' ∨ OrFollows E c' := by
  induction n using Nat.strong_induction_on with
  | _ n ihn =>
    intro c hc hq k o h
    have hP := pass_pos (c := c) (q := q) (by omega)
    obtain ⟨k1, o1, h1, hh⟩ := chain_inv h (q := q) (by omega) (by decide) (by decide) (by decide) rfl
    obtain ⟨b1, s1⟩ := and_cost (E := E) (q := q) (B := B) (m := n) hq (fun c2 k2 o2 a b => by
      obtain ⟨hb, hs⟩ := ihn c2.rest.length b c2 rfl (by omega) k2 o2 a
      have := Nat.mul_le_mul_right (105 * pass q) (show c2.rest.length + 1 ≤ q by omega)
      refine ⟨by omega, fun c' hc' => ?_⟩
      rcases hs c' hc' with hs | hs
      · left; omega
      · exact .inr hs) n c hc (by omega) k1 o1 h1
    have e1 : (n + 1) * (105 * pass q) = 2 * ((n + 1) * (50 * pass q)) + (n + 1) * (5 * pass q) := by ring
    have e2 : (n + 1) * (5 * pass q) = n * (5 * pass q) + 5 * pass q := by ring
    have e5 : (n + 1) * (50 * pass q) = n * (50 * pass q) + 50 * pass q := by ring
    rcases hh with ⟨ho, hk⟩ | ⟨c1, c2, c3, c4, n2, n3, k5, o5, rfl, h2, h3, -, hlt, hpar, h5, hh⟩
    · refine ⟨by omega, ?_⟩
      rintro c' rfl
      rcases ho with rfl | ho
      · rcases s1 c' rfl with s1 | s1
        · left; omega
        · exact .inr (.inl s1)
      · cases ho
    · have hl1 : c1.rest.length ≤ n := hc ▸ run_le h1.run
      have hsg := sg_mono (B := B) hpar
      have hsg1 := sg_mono (B := B) (run_parens h1.run)
      obtain ⟨b5, s5⟩ := ihn c4.rest.length (by omega) c4 rfl (by omega) k5 o5 h5
      have s2 : k1 + c1.rest.length * (50 * pass q) + 2 * sg B (parens c1) ≤
          n * (50 * pass q) + 2 * sg B (parens c) := by
        rcases s1 c1 rfl with s1 | ⟨m2, m3, d2, d3, g2, g3⟩
        · exact s1
        · obtain ⟨-, he⟩ := run_rule_det h2 g2
          cases he
          exact (and_or_differ g3 h3).elim
      have hl4 := Nat.mul_le_mul_right (105 * pass q) (show c4.rest.length + 1 ≤ c1.rest.length by omega)
      have e3 : c1.rest.length * (105 * pass q) =
        2 * (c1.rest.length * (50 * pass q)) + c1.rest.length * (5 * pass q) := by ring
      have e4 := Nat.mul_le_mul_right (5 * pass q) hl1
      rcases hh with ⟨rfl, hk⟩ | ⟨ho, hk⟩
      · refine ⟨by omega, fun c' hc' => ?_⟩
        rcases s5 c' hc' with s5 | s5
        · left; omega
        · exact .inr s5
      · refine ⟨by omega, ?_⟩
        rintro c' rfl
        rcases ho with ho | ho
        · cases ho
          exact .inr (.inr ⟨_, _, _, _, h2, h3⟩)
        · cases ho

/-- The parse of the whole text comes down to one of the clause after the white space. -/
theorem start_inv {q : Nat} (h : Run0 E (grammar .Start) c k o) (hq : c.rest.length + 1 ≤ q) :
    k ≤ 5 * pass q ∨ ∃ c1 m k1 o1, Run E (.rule .ws) c m (some c1) ∧ Run0 E (grammar .OrClause) c1 k1 o1 ∧
      k ≤ 5 * pass q + k1 := by
  have hP := pass_pos (c := c) hq
  obtain ⟨k1, o1, rfl, h', -⟩ := run_action h
  clear h; rename' h' => h
  obtain ⟨k2, rfl, h'⟩ := run_seq h
  clear h; rename' h' => h
  obtain ⟨k3, o3, h3, h'⟩ := runSeq_cons h
  clear h; rename' h' => h
  have hle3 : ∀ c1, o3 = some c1 → c1.rest.length ≤ c.rest.length := by
    rintro c1 rfl
    exact run_le h3
  have hk : k2 ≤ k3 + pass q := by
    rcases h with ⟨-, -, rfl⟩ | ⟨c1, k4, rfl, h, rfl⟩
    · omega
    · have := hle3 _ rfl
      obtain ⟨k5, o5, h5, h'⟩ := runSeq_cons h
      clear h; rename' h' => h
      have b5 : k5 ≤ pass q := run_flat h5 (by decide) (by omega)
      rcases h with ⟨-, -, rfl⟩ | ⟨c1, k4, rfl, h, rfl⟩
      · omega
      · obtain ⟨rfl, -⟩ := runSeq_nil h
        omega
  obtain ⟨k4, rfl, h3'⟩ := run_label h3
  clear h3; rename' h3' => h3
  obtain ⟨k5, rfl, h3'⟩ := run_rule h3.run
  clear h3; rename' h3' => h3
  obtain ⟨k6, o6, rfl, h3', -⟩ := run_action h3
  clear h3; rename' h3' => h3
  obtain ⟨k7, rfl, h3'⟩ := run_seq h3
  clear h3; rename' h3' => h3
  obtain ⟨k8, o8, h8, h3'⟩ := runSeq_cons h3
  clear h3; rename' h3' => h3
  have b8 : k8 ≤ pass q := run_flat h8 (by decide) (by omega)
  rcases h3 with ⟨-, -, rfl⟩ | ⟨c1, k9, rfl, h3, rfl⟩
  · left; omega
  have hle := run_le h8
  obtain ⟨k10, o10, h10, h3'⟩ := runSeq_cons h3
  clear h3; rename' h3' => h3
  have hle10 : ∀ c2, o10 = some c2 → c2.rest.length ≤ c1.rest.length := by
    rintro c2 rfl
    exact run_le h10
  obtain ⟨k11, rfl, h10'⟩ := run_label h10
  clear h10; rename' h10' => h10
  obtain ⟨k12, rfl, h10'⟩ := run_rule h10.run
  clear h10; rename' h10' => h10
  have hk9 : k9 ≤ k12 + 2 + pass q := by
    rcases h3 with ⟨-, -, rfl⟩ | ⟨c2, k13, rfl, h3, rfl⟩
    · omega
    · have := hle10 _ rfl
      obtain ⟨k14, o14, h14, h3'⟩ := runSeq_cons h3
      clear h3; rename' h3' => h3
      have b14 : k14 ≤ pass q := run_flat h14 (by decide) (by omega)
      rcases h3 with ⟨-, -, rfl⟩ | ⟨c3, k15, rfl, h3, rfl⟩
      · omega
      · obtain ⟨rfl, -⟩ := runSeq_nil h3
        omega
  exact .inr ⟨c1, _, k12, o10, h8, h10, by omega⟩

/-- Cost of the whole parse. -/
theorem start_cost (h : Run0 E (grammar .Start) c k o) :
    k ≤ 160000 * (c.rest.length + 1) ^ 3 * 4 ^ parens c := by
  set q := c.rest.length + 1 with hqd
  have hk7 : k ≤ 5 * pass q + (q * (105 * pass q) + 4 * sg (q * (105 * pass q)) (parens c)) := by
    rcases start_inv h (q := q) (Nat.le_refl _) with hk | ⟨c1, m, k1, o1, h1, h2, hk⟩
    · omega
    · have hp := sg_mono (B := q * (105 * pass q)) (run_parens h1)
      have hle := run_le h1
      obtain ⟨b12, -⟩ := or_cost (q := q) rfl _ c1 rfl (by omega) k1 o1 h2
      have hl := Nat.mul_le_mul_right (105 * pass q) (show c1.rest.length + 1 ≤ q by omega)
      omega
  have hs := sg_pow (q * (105 * pass q)) (parens c)
  have hpow : 1 ≤ 4 ^ parens c := Nat.pow_pos (by omega)
  have e1 : q * (105 * pass q) = 115500 * q ^ 3 := by unfold pass; ring
  have e2 : pass q ≤ 1100 * q ^ 3 := by
    unfold pass
    have : q ^ 2 ≤ q ^ 3 := Nat.pow_le_pow_right (by omega) (by omega)
    omega
  have e3 : q ^ 3 ≤ q ^ 3 * 4 ^ parens c := Nat.le_mul_of_pos_right _ hpow
  have e4 : 160000 * q ^ 3 * 4 ^ parens c = 160000 * (q ^ 3 * 4 ^ parens c) := by ring
  have e5 : 115500 * q ^ 3 * 4 ^ parens c = 115500 * (q ^ 3 * 4 ^ parens c) := by ring
  rw [e1] at hk7 hs
  rw [e5] at hs
  rw [e4]
  omega

theorem nest_parens (n : Nat) (t : Str) : (nest n t).count '(' = n + t.count '(' := by
  induction n with
  | zero => simp [nest]
  | succ n ih =>
    simp only [nest, List.count_cons, List.count_append, List.count_nil, ih]
    simp
    omega

/-- What grows like `4 ^ n` is not bounded by a polynomial times a smaller power. -/
theorem four_le_rate {b c k : Nat} (h : ∀ n, 4 ^ (n + 1) ≤ c * (2 * n + 9) ^ k * b ^ n) : 4 ≤ b := by
  by_contra hb
  have hb : b ≤ 3 := by omega
  -- n = 3 m with m = 2 ^ (2 j) and j = 8 k + c
  let j := 8 * k + c
  have h2j : j + 1 ≤ 2 ^ j := Nat.lt_two_pow_self
  set m := 2 ^ (2 * j) with hm
  have hl : 2 * (3 * m) + 9 ≤ 2 ^ (2 * j + 4) := by
    rw [pow_add, ← hm]
    have h1 : 1 ≤ m := Nat.one_le_two_pow
    omega
  have hc : c < 2 ^ c := Nat.lt_two_pow_self
  have hup : c * (2 * (3 * m) + 9) ^ k * b ^ (3 * m) < 4 ^ (3 * m + 1) := by
    have h1 : c * (2 * (3 * m) + 9) ^ k ≤ 2 ^ m := by
      calc c * (2 * (3 * m) + 9) ^ k
          ≤ c * (2 ^ (2 * j + 4)) ^ k := Nat.mul_le_mul_left _ (Nat.pow_le_pow_left hl k)
        _ ≤ 2 ^ c * (2 ^ (2 * j + 4)) ^ k := Nat.mul_le_mul_right _ hc.le
        _ = 2 ^ (c + (2 * j + 4) * k) := by rw [← pow_mul, ← pow_add]
        _ ≤ 2 ^ m := by
            apply Nat.pow_le_pow_right (by norm_num)
            have e : m = 2 ^ j * 2 ^ j := by rw [hm, two_mul, pow_add]
            have h3 : (j + 1) * (j + 1) ≤ m := by rw [e]; exact Nat.mul_le_mul h2j h2j
            have hk : 8 * k ≤ j := by omega
            have hcj : c ≤ j := by omega
            nlinarith
    calc c * (2 * (3 * m) + 9) ^ k * b ^ (3 * m)
        ≤ 2 ^ m * 3 ^ (3 * m) := Nat.mul_le_mul h1 (Nat.pow_le_pow_left hb _)
      _ = 54 ^ m := by rw [pow_mul, ← mul_pow]; norm_num
      _ ≤ 64 ^ m := Nat.pow_le_pow_left (by norm_num) _
      _ = 4 ^ (3 * m) := by rw [pow_mul]; norm_num
      _ < 4 ^ (3 * m + 1) := Nat.pow_lt_pow_right (by norm_num) (by omega)
  have := h (3 * m)
  omega

end Aql
