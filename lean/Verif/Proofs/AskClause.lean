import Verif.Proofs.AskValue
/-!
A run without errors tests the text of a query only where it can be completed.
-/

namespace Aql

open Spec

variable {E : Env} {ctx : Ctx} {fr fr' : VFrame} {pre s a b q : Str} {v : PV}

/-! ### Completions -/

theorem Spec.Beginning.cut {p r : Str} (h : Beginning E p) (hr : r <+: p) : Beginning E r := by
  obtain ⟨u, rfl⟩ := hr
  obtain ⟨t, n, h⟩ := h
  exact ⟨u ++ t, n, by rw [← List.append_assoc]; exact h⟩

theorem Spec.Beginning.left {p r : Str} (h : Beginning E (p ++ r)) : Beginning E p := h.cut (List.prefix_append _ _)

/-- The text can be completed, or ends within a misshapen time or network. -/
def Viable (E : Env) (p : Str) : Prop := Beginning E p ∨ Misshapen E p

/-- Any literal would do here. -/
def LitHole (E : Env) (pre : Str) : Prop := ∀ t v, Lit E pre t v → Beginning E (pre ++ t)
/-- Any literal or list would do here. -/
def ValuesHole (E : Env) (pre : Str) : Prop := ∀ t vs, Values E pre t vs → Beginning E (pre ++ t)
/-- Any expression of the level would do here. -/
def TextHole (E : Env) (L : Level) (pre : Str) : Prop := ∀ t n, Text E L pre t n → Beginning E (pre ++ t)

/-- Where an expression of a level is expected, any will do. -/
theorem opens_fill {L : Level} (h : Opens E L q) : ∀ {a n}, Text E L q a n → Beginning E (q ++ a) := by
  induction h with
  | @start w hw => intro a n ha; exact ⟨[], n, w, a, [], hw, ws_nil, ha, by simp⟩
  | @group q w _ hw ih =>
    intro a n ha
    exact (ih (.group (w2 := []) hw ha ws_nil)).cut ⟨[')'], by simp⟩
  | @or q a' n' w1 w2 _ ha' h1 h2 ih =>
    intro a n ha
    have := ih (.or ha' h1 h2 ha)
    simpa using this
  | orAnd _ ih => intro a n ha; exact ih (.orAnd ha)
  | @and q a' n' w1 w2 _ ha' h1 h2 ih =>
    intro a n ha
    have := ih (.and ha' h1 h2 ha)
    simpa using this
  | andNot _ ih => intro a n ha; exact ih (.andNot ha)
  | @not q k _ hk ih =>
    intro a n ha
    have := ih (.not hk ha)
    simpa using this
  | notCmp _ ih => intro a n ha; exact ih (.notCmp ha)

theorem space_one : Space [' '] := ⟨by intro c hc; simp at hc; subst hc; exact .inl rfl, by simp⟩

/-- A space may follow. -/
theorem opens_fill_space {L : Level} (h : Opens E L q) : ∀ {a n}, Text E L q a n → Beginning E (q ++ (a ++ [' '])) := by
  induction h with
  | @start w hw => intro a n ha; exact ⟨[], n, w, a, [' '], hw, space_one.1, ha, by simp⟩
  | @group q w hq hw ih =>
    intro a n ha
    exact (opens_fill hq (.group (w2 := [' ']) hw ha space_one.1)).cut ⟨[')'], by simp⟩
  | @or q a' n' w1 w2 _ ha' h1 h2 ih =>
    intro a n ha
    have := ih (.or ha' h1 h2 ha)
    simpa using this
  | orAnd _ ih => intro a n ha; exact ih (.orAnd ha)
  | @and q a' n' w1 w2 _ ha' h1 h2 ih =>
    intro a n ha
    have := ih (.and ha' h1 h2 ha)
    simpa using this
  | andNot _ ih => intro a n ha; exact ih (.andNot ha)
  | @not q k _ hk ih =>
    intro a n ha
    have := ih (.not hk ha)
    simpa using this
  | notCmp _ ih => intro a n ha; exact ih (.notCmp ha)

theorem Spec.Opens.hole {L : Level} (h : Opens E L pre) : TextHole E L pre := fun _ _ ht => opens_fill h ht

theorem Spec.ValuesDue.hole (h : ValuesDue E pre) : ValuesHole E pre := by
  cases h with
  | mk hq hp h1 h2 ho h3 =>
    intro t vs hv
    have := opens_fill hq (.compare hp h1 h2 ho h3 hv rfl)
    simpa using this

theorem LitHole.here (h : LitHole E pre) : Beginning E pre := (h _ _ lit_one).left

theorem ValuesHole.lit (h : ValuesHole E pre) : LitHole E pre := fun t v hl => h t [v] (.one hl)

/-! ### Value lists -/

theorem items_snoc {w1 w2 t u : Str} {vs : List Val} {x : Val} (h : Items E pre t vs) (h1 : Ws w1) (h2 : Ws w2)
    (hx : Lit E (pre ++ (t ++ (w1 ++ ',' :: w2))) u x) : Items E pre (t ++ (w1 ++ ',' :: (w2 ++ u))) (vs ++ [x]) := by
  induction h with
  | one h => exact .cons h h1 h2 (.one hx)
  | @cons pre t v w3 w4 s vs h k1 k2 _ ih =>
    have := ih (by
      have e : pre ++ (t ++ (w3 ++ ',' :: (w4 ++ s)) ++ (w1 ++ ',' :: w2)) =
        pre ++ (t ++ (w3 ++ ',' :: w4)) ++ (s ++ (w1 ++ ',' :: w2)) := by simp
      rw [e] at hx
      exact hx)
    have h := Items.cons h k1 k2 this
    have e : t ++ (w3 ++ ',' :: (w4 ++ s)) ++ (w1 ++ ',' :: (w2 ++ u)) =
      t ++ (w3 ++ ',' :: (w4 ++ (s ++ (w1 ++ ',' :: (w2 ++ u))))) := by simp
    rw [e]
    exact h

theorem items_pos {t : Str} {vs : List Val} (h : Items E pre t vs) : 1 ≤ vs.length := by
  cases h <;> simp

theorem ValuesHole.item {w w1 w2 t : Str} {vs : List Val} (hv : ValuesHole E pre) (hw : Ws w)
    (h : Items E (pre ++ '(' :: w) t vs) (h1 : Ws w1) (h2 : Ws w2) :
    LitHole E (pre ++ '(' :: w ++ (t ++ (w1 ++ ',' :: w2))) := by
  intro u x hx
  have h3 := items_snoc h h1 h2 hx
  have h4 := hv _ _ (Values.list hw h3 (by have := items_pos h; simp; omega) ws_nil)
  refine h4.cut ⟨[')'], ?_⟩
  simp

theorem ValuesHole.items {w w1 t : Str} {vs : List Val} (hv : ValuesHole E pre) (hw : Ws w)
    (h : Items E (pre ++ '(' :: w) t vs) (h1 : Ws w1) : Beginning E (pre ++ '(' :: w ++ (t ++ w1)) := by
  refine (hv.item hw h h1 ws_nil).here.cut ⟨[','], ?_⟩
  simp

theorem ValuesHole.first {w : Str} (hv : ValuesHole E pre) (hw : Ws w) : LitHole E (pre ++ '(' :: w) := by
  intro u x hx
  refine (hv.items hw (.one hx) ws_nil).cut ?_
  simp

theorem Spec.LitDue.hole (h : LitDue E pre) : LitHole E pre := by
  cases h with
  | one h => exact h.hole.lit
  | first h hw => exact h.hole.first hw
  | next h hw hi h1 h2 => exact h.hole.item hw hi h1 h2

theorem Spec.LitDue.space {t : Str} {x : Val} (h : LitDue E pre) (ht : Lit E pre t x) : Beginning E (pre ++ (t ++ [' '])) := by
  cases h with
  | one h =>
    cases h with
    | mk hq hp h1 h2 ho h3 =>
      have := opens_fill_space hq (.compare hp h1 h2 ho h3 (.one ht) rfl)
      simpa using this
  | @first q w h hw =>
    have := h.hole.items (w1 := [' ']) hw (.one ht) space_one.1
    simpa using this
  | @next q w u xs w1 w2 h hw hi h1 h2 =>
    have := h.hole _ _ (Values.list (w2 := [' ']) hw (items_snoc hi h1 h2 ht) (by have := items_pos hi; simp; omega) space_one.1)
    refine this.cut ⟨[')'], ?_⟩
    simp

theorem Spec.LitDue.inside (h : LitDue E pre) (hi : Inside E pre q) : Viable E q := by
  rcases hi with ⟨t, v, h1, h2⟩ | ⟨x, y, rfl, h3⟩
  · exact .inl ((h.hole t v h1).cut h2)
  · by_cases hl : ∃ t v, Lit E pre (x ++ t) v
    · obtain ⟨t, v, hl⟩ := hl
      exact .inl ((h.hole _ v hl).cut ⟨t, by simp⟩)
    · by_cases hd : ∃ d i, x = d ++ [' '] ∧ DayText d i
      · obtain ⟨d, i, rfl, hd⟩ := hd
        exact .inl (h.space (.day hd))
      · exact .inr ⟨pre, x, y, rfl, h, h3, fun t v hv => hl ⟨t, v, hv⟩, fun d i e hi => hd ⟨d, i, e, hi⟩⟩

theorem ask_valueList (hd : ValuesDue E pre) (h : Ask E ctx (.rule .ValueList) fr pre s q) : Viable E q := by
  have hv := hd.hole
  replace h := ask_rule h
  rw [show grammar .ValueList = .choice [.action .onValueList2
        (.seq [.lit ['('] false "\"(\"".toList, .rule .ws, .label .first (.rule .Value),
          .label .rest (.star listElem), .rule .ws, .lit [')'] false "\")\"".toList]),
      .action .onValueList17 (.label .value (.rule .Value))] from rfl] at h
  replace h := ask_choice h
  rcases h with h | ⟨-, h | ⟨-, h⟩⟩
  · have fin : ∀ {w t r w1}, Ws w → (∃ x xs, Items E (pre ++ '(' :: w) (t ++ r) (x :: xs)) → Ws w1 →
        Viable E (pre ++ ['('] ++ w ++ t ++ r ++ w1) := by
      rintro w t r w1 hw ⟨x, xs, hi⟩ h1
      have := hv.items hw hi h1
      rw [show pre ++ ['('] ++ w ++ t ++ r ++ w1 = pre ++ '(' :: w ++ (t ++ r ++ w1) by simp]
      exact .inl this
    replace h := ask_seq (ask_action h)
    rcases h with h | ⟨_, _, _, _, h0, h | ⟨_, w, _, _, h1, h | ⟨_, t, _, _, h2, h | ⟨_, r, _, _, h3, h |
        ⟨_, w1, _, _, h4, h | ⟨_, _, _, _, -, h⟩⟩⟩⟩⟩⟩
    · rw [ask_lit h]
      exact .inl hv.lit.here
    · obtain ⟨rfl, rfl, rfl, -⟩ := ok_lit1.1 h0
      obtain ⟨w, hw, rfl⟩ := ask_ws h
      have := (hv.first hw).here
      exact .inl (by simpa using this)
    · obtain ⟨rfl, rfl, rfl, -⟩ := ok_lit1.1 h0
      have hw := (rule_ws.1 (okR.1 h1).2).2.2.1
      have hl := LitDue.first hd hw
      have h := ask_value (ask_label h)
      rw [show pre ++ ['('] ++ w = pre ++ '(' :: w by simp] at h
      exact hl.inside h
    · obtain ⟨rfl, rfl, rfl, -⟩ := ok_lit1.1 h0
      have hw := (rule_ws.1 (okR.1 h1).2).2.2.1
      obtain ⟨-, _, h2⟩ := ok_label.1 h2
      obtain ⟨x, -, hx⟩ := value_lit (okR.1 h2).2
      obtain ⟨r, y, hrow, h⟩ := ask_star (ask_label h)
      obtain ⟨xs, hit⟩ := row_items hrow rfl hx
      rw [show pre ++ ['('] ++ w = pre ++ '(' :: w by simp] at hit
      replace h := ask_seq h
      rcases h with h | ⟨_, w1, _, _, k1, h | ⟨_, _, _, _, k2, h | ⟨_, w2, _, _, k3, h | ⟨_, _, _, _, -, h⟩⟩⟩⟩
      · obtain ⟨w1, hw1, rfl⟩ := ask_ws h
        exact fin hw ⟨_, _, hit⟩ hw1
      · rw [ask_lit h]
        exact fin hw ⟨_, _, hit⟩ (rule_ws.1 (okR.1 k1).2).2.2.1
      · obtain ⟨-, rfl, rfl, -⟩ := ok_lit1.1 k2
        obtain ⟨w2, hw2, rfl⟩ := ask_ws h
        have := (hv.item hw hit (rule_ws.1 (okR.1 k1).2).2.2.1 hw2).here
        exact .inl (by simpa using this)
      · obtain ⟨-, rfl, rfl, -⟩ := ok_lit1.1 k2
        have hl := LitDue.next hd hw hit (rule_ws.1 (okR.1 k1).2).2.2.1 (rule_ws.1 (okR.1 k3).2).2.2.1
        have h := ask_value h
        rw [show pre ++ ['('] ++ w ++ t ++ r ++ w1 ++ [','] ++ w2 = pre ++ '(' :: w ++ (t ++ r ++ (w1 ++ ',' :: w2)) by simp] at h
        exact hl.inside h
      · exact h.elim
    all_goals try exact h.elim
    all_goals
      obtain ⟨rfl, rfl, rfl, -⟩ := ok_lit1.1 h0
      have hw := (rule_ws.1 (okR.1 h1).2).2.2.1
      obtain ⟨-, _, h2⟩ := ok_label.1 h2
      obtain ⟨x, -, hx⟩ := value_lit (okR.1 h2).2
      obtain ⟨-, _, h3⟩ := ok_label.1 h3
      obtain ⟨-, vs, -, h3⟩ := ok_star.1 h3
      obtain ⟨xs, -, -, hit⟩ := items_of h3 rfl hx
      rw [show pre ++ ['('] ++ w = pre ++ '(' :: w by simp] at hit
    · obtain ⟨w1, hw1, rfl⟩ := ask_ws h
      exact fin hw ⟨_, _, hit⟩ hw1
    · rw [ask_lit h]
      exact fin hw ⟨_, _, hit⟩ (rule_ws.1 (okR.1 h4).2).2.2.1
  · exact (LitDue.one hd).inside (ask_value (ask_label (ask_action h)))
  · exact h.elim

/-! ### Fields -/

theorem piece_a : Piece E ['a'] ['a'] := .bare (by simp) (by
  intro c hc
  simp only [List.mem_singleton] at hc
  subst hc
  rw [fieldChar_ascii (by decide)]
  decide)

theorem path_snoc {t u y : Str} {xs : List Str} (h : Path E t xs) (hu : Piece E u y) : Path E (t ++ '.' :: u) (xs ++ [y]) := by
  induction h with
  | one h => exact .cons h (.one hu)
  | cons h _ ih =>
    rw [List.append_assoc, List.cons_append]
    exact .cons h ih

theorem row_path (h : Row E ctx dotElem pre s a b) : ∀ {t xs}, Path E t xs → ∃ ys, Path E (t ++ a) ys := by
  induction h with
  | nil => intro t xs h; exact ⟨xs, by simpa using h⟩
  | cons h1 _ ih =>
    intro t xs h
    obtain ⟨-, u, x, rfl, -, -, h2⟩ := ok_dotElem.1 h1
    obtain ⟨y, -, hy⟩ := fieldPiece_of h2
    obtain ⟨ys, h3⟩ := ih (path_snoc h hy)
    exact ⟨ys, by simpa using h3⟩

theorem ask_piece (h : Ask E ctx (.rule .FieldPiece) fr pre s q) : ∃ t x, Piece E t x ∧ q <+: pre ++ t := by
  replace h := ask_rule h
  rw [show grammar .FieldPiece = .choice [.rule .QuotedFieldPiece, .rule .UnquotedFieldPiece, .rule .Star] from rfl] at h
  replace h := ask_choice h
  rcases h with h | ⟨-, h | ⟨-, h | ⟨-, h⟩⟩⟩
  · replace h := ask_label (ask_action (ask_rule h))
    rcases ask_quoted h with rfl | ⟨v, a, b, hr, hq⟩
    · exact ⟨_, _, piece_a, List.prefix_append _ _⟩
    · obtain ⟨-, t, x, h1, rfl, -⟩ := rule_quoted.1 hr
      exact ⟨_, _, .quoted h1, hq⟩
  · obtain ⟨x, y, hr, h1⟩ := ask_plus (ask_action (ask_rule h))
    rw [ask_cls h1]
    by_cases hx : x = []
    · subst hx
      exact ⟨_, _, piece_a, by simp⟩
    · exact ⟨_, _, .bare hx fun c hc => cls_field.1 (row_cls hr c hc), List.prefix_refl _⟩
  · rw [ask_lit (ask_action (ask_rule h))]
    exact ⟨_, _, piece_a, List.prefix_append _ _⟩
  · exact h.elim

theorem ask_field (h : Ask E ctx (.rule .Field) fr pre s q) : ∃ t xs, Path E t xs ∧ q <+: pre ++ t := by
  replace h := ask_rule h
  rw [show grammar .Field = .action .onField1 (.label .pieces (.seq [.rule .FieldPiece, .star dotElem])) from rfl] at h
  replace h := ask_seq (ask_label (ask_action h))
  rcases h with h | ⟨_, t, _, _, h0, h | ⟨_, _, _, _, -, h⟩⟩
  · obtain ⟨t, x, h1, h2⟩ := ask_piece h
    exact ⟨t, _, .one h1, h2⟩
  · obtain ⟨x, -, hx⟩ := fieldPiece_of (okR.1 h0).2
    obtain ⟨r, y, hrow, h⟩ := ask_star h
    obtain ⟨ys, hp⟩ := row_path hrow (.one hx)
    replace h := ask_seq h
    rcases h with h | ⟨_, _, _, _, k, h | ⟨_, _, _, _, -, h⟩⟩
    · rw [ask_lit h]
      exact ⟨_, _, hp, by simp⟩
    · obtain ⟨-, rfl, rfl, -⟩ := ok_lit1.1 k
      obtain ⟨u, z, h1, h2⟩ := ask_piece h
      exact ⟨_, _, path_snoc hp h1, by simpa using h2⟩
    · exact h.elim
  · exact h.elim

/-! ### Clauses -/

theorem text_one : ∃ n, Text E .cmp pre "a:1".toList n :=
  ⟨_, .compare (p := ['a']) (w1 := []) (w2 := []) (o := []) (w3 := []) (s := ['1']) (.one piece_a) ws_nil ws_nil .eq ws_nil
    (.one lit_one) rfl⟩

theorem TextHole.here (L : Level) (h : TextHole E L pre) : Beginning E pre := by
  obtain ⟨n, hn⟩ := text_one (E := E) (pre := pre)
  cases L
  · exact (h _ _ (.orAnd (.andNot (.notCmp hn)))).left
  · exact (h _ _ (.andNot (.notCmp hn))).left
  · exact (h _ _ (.notCmp hn)).left
  · exact (h _ _ hn).left

/-- In a run without errors, a clause rule on texts up to a length tests only where the text can be completed. -/
def ViableTo (E : Env) (ctx : Ctx) (L : Level) (N : Nat) : Prop := ∀ ⦃fr pre s q⦄, s.length ≤ N → Opens E L pre →
  Ask E ctx (.rule (ruleOf L)) fr pre s q → Viable E q

theorem TextHole.values {p w1 w2 o w3 : Str} {xs : List Str} {op : Op} (h : TextHole E .cmp pre) (hp : Path E p xs)
    (h1 : Ws w1) (h2 : Ws w2) (ho : OpText o op) (h3 : Ws w3) :
    ValuesHole E (pre ++ (p ++ (w1 ++ ':' :: (w2 ++ (o ++ w3))))) := by
  intro t vs hv
  have := h _ _ (.compare hp h1 h2 ho h3 hv rfl)
  simpa using this

theorem TextHole.path {p w1 : Str} {xs : List Str} (h : TextHole E .cmp pre) (hp : Path E p xs) (h1 : Ws w1) :
    Beginning E (pre ++ (p ++ w1)) :=
  (h.values hp h1 ws_nil .eq ws_nil).lit.here.cut ⟨[':'], by simp⟩

theorem TextHole.colon {p w1 w2 : Str} {xs : List Str} (h : TextHole E .cmp pre) (hp : Path E p xs) (h1 : Ws w1) (h2 : Ws w2) :
    Beginning E (pre ++ p ++ w1 ++ [':'] ++ w2) :=
  (h.values hp h1 h2 .eq ws_nil).lit.here.cut (by simp)

theorem ask_head {x : List PExpr} (hh : TextHole E .cmp pre) (h : AskS E ctx ([.label .field (.rule .Field), .rule .ws,
      .lit [':'] false "\":\"".toList, .rule .ws] ++ x) fr pre s q)
    (hx : ∀ g p1 xs w1 w2 r, s = p1 ++ (w1 ++ (':' :: (w2 ++ r))) → Path E p1 xs → Ws w1 → Ws w2 →
      AskS E ctx x g (pre ++ p1 ++ w1 ++ [':'] ++ w2) r q → Viable E q) :
    Viable E q := by
  rcases h with h | ⟨_, p1, _, _, h1, h | ⟨_, w1, _, _, h2, h | ⟨_, _, _, _, h3, h | ⟨_, w2, _, g, h4, h⟩⟩⟩⟩
  · obtain ⟨t, xs, h1, h2⟩ := ask_field (ask_label h)
    exact .inl ((hh.path h1 ws_nil).cut (by simpa using h2))
  all_goals
    obtain ⟨-, _, h1⟩ := ok_label.1 h1
    obtain ⟨-, h1⟩ := okR.1 h1
    obtain ⟨xs, -, hp⟩ := field_of h1
  · obtain ⟨w, hw, rfl⟩ := ask_ws h
    exact .inl (by simpa using hh.path hp hw)
  all_goals
    obtain ⟨-, h2⟩ := okR.1 h2
    have hw1 := (rule_ws.1 h2).2.2.1
  · rw [ask_lit h]
    exact .inl (by simpa using hh.path hp hw1)
  all_goals obtain ⟨-, rfl, rfl, -⟩ := ok_lit1.1 h3
  · obtain ⟨w, hw, rfl⟩ := ask_ws h
    exact .inl (hh.colon hp hw1 hw)
  · obtain ⟨-, h4⟩ := okR.1 h4
    have e1 := h1.split
    have e2 := h2.split
    have e4 := h4.split
    subst e4
    subst e2
    subst e1
    exact hx _ _ _ _ _ _ rfl hp hw1 (rule_ws.1 h4).2.2.1 h

theorem ask_noArgs (h : Ask E ctx (.rule .opNoArgs) fr pre s q) : q = pre := by
  refine shy_choice ?_ _ _ _ _ _ (ask_action (ask_rule h))
  simp only [List.forall_mem_cons]
  exact ⟨shy_lit, shy_lit, by simp⟩

theorem ask_opComp (h : Ask E ctx (.rule .opComp) fr pre s q) : ∃ o op, OpText o op ∧ q = pre ++ o := by
  have here : ∃ o op, OpText o op ∧ pre = pre ++ o := ⟨[], _, .eq, by simp⟩
  replace h := ask_choice (ask_action (ask_rule h))
  rcases h with h | ⟨-, h | ⟨-, h | ⟨-, h⟩⟩⟩
  · rw [ask_lit h]; exact here
  · rw [ask_lit h]; exact here
  · replace h := ask_seq h
    rcases h with h | ⟨_, _, _, _, k, h | ⟨_, _, _, _, -, h⟩⟩
    · rw [ask_cls h]; exact here
    · rw [ask_lit (ask_opt h)]
      obtain ⟨-, c, rfl, -, -, hc⟩ := ok_cls.1 k
      have hc' : c = '<' ∨ c = '>' := by simpa [clsMatch] using hc
      rcases hc' with rfl | rfl
      · exact ⟨_, _, .lt, rfl⟩
      · exact ⟨_, _, .gt, rfl⟩
    · exact h.elim
  · exact h.elim

theorem cmp_viable {N : Nat} (ih : ∀ M < N, ViableTo E ctx .or M) : ViableTo E ctx .cmp N := by
  intro fr pre s q hN hq h
  have hh := hq.hole
  replace h : Ask E ctx (.rule .Comparison) fr pre s q := h
  replace h := ask_rule h
  rw [grammar_comparison] at h
  replace h := ask_choice h
  rcases h with h | ⟨-, h | ⟨-, h | ⟨-, h⟩⟩⟩
  · have ho : ∀ {w w2 : Str}, Ws w → Ws w2 → ∀ t n, Text E .or (pre ++ ['('] ++ w) t n → Beginning E (pre ++ ['('] ++ w ++ t ++ w2) := by
      intro w w2 hw hw2 t n ht
      rw [show pre ++ ['('] ++ w = pre ++ '(' :: w by simp] at ht
      exact (hh _ _ (.group hw ht hw2)).cut ⟨[')'], by simp⟩
    have hl : ∀ {w : Str}, Ws w → TextHole E .or (pre ++ ['('] ++ w) := by
      intro w hw t n ht
      simpa using ho hw ws_nil t n ht
    replace h := ask_seq (ask_action h)
    rcases h with h | ⟨_, _, _, _, h0, h | ⟨_, w, _, _, h1, h | ⟨_, t, _, _, h2, h | ⟨_, r, _, _, h3, h |
      ⟨_, _, _, _, -, h⟩⟩⟩⟩⟩
    · rw [ask_lit h]
      exact .inl (hh.here .cmp)
    all_goals try exact h.elim
    all_goals obtain ⟨rfl, rfl, rfl, -⟩ := ok_lit1.1 h0
    · obtain ⟨w, hw, rfl⟩ := ask_ws h
      exact .inl ((hl hw).here .or)
    all_goals
      have hw := (rule_ws.1 (okR.1 h1).2).2.2.1
      have e := (okR.1 h1).2.split
      subst e
    · refine ih (N - 1) ?_ ?_ (by simpa using Opens.group hq hw) (ask_label h)
      · simp at hN; omega
      · simp at hN; omega
    all_goals
      obtain ⟨-, _, h2⟩ := ok_label.1 h2
      obtain ⟨n, -, ht⟩ := clause_sound (L := .or) (okR.1 h2).2
    · obtain ⟨w2, hw2, rfl⟩ := ask_ws h
      exact .inl (ho hw hw2 _ _ ht)
    · rw [ask_lit h]
      exact .inl (ho hw (rule_ws.1 (okR.1 h3).2).2.2.1 _ _ ht)
  · refine ask_head (x := [.label .operation (.rule .opNoArgs)]) hh (ask_seq (ask_action h)) ?_
    rintro g p1 xs w1 w2 r - hp hw1 hw2 (h | ⟨_, _, _, _, -, h⟩)
    · rw [ask_noArgs (ask_label h)]
      exact .inl (hh.colon hp hw1 hw2)
    · exact h.elim
  · refine ask_head (x := [.label .operation (.opt (.rule .opComp)), .rule .ws, .label .values (.rule .ValueList)]) hh
      (ask_seq (ask_action h)) ?_
    rintro g p1 xs w1 w2 r - hp hw1 hw2 (h | ⟨_, o, _, _, h5, h | ⟨_, w3, _, _, h6, h | ⟨_, _, _, _, -, h⟩⟩⟩)
    · obtain ⟨o, op, ho, rfl⟩ := ask_opComp (ask_opt (ask_label h))
      have := (hh.values hp hw1 hw2 ho ws_nil).lit.here
      exact .inl (by simpa using this)
    all_goals try exact h.elim
    all_goals
      obtain ⟨-, _, h5⟩ := ok_label.1 h5
      rw [ok_opt] at h5
      obtain ⟨op, hop⟩ : ∃ op, OpText o op := by
        rcases h5.2 with ⟨_, h⟩ | h
        · obtain ⟨op, -, ho⟩ := opComp_of (okR.1 h).2
          exact ⟨op, ho⟩
        · rw [h.2.2.1]
          exact ⟨_, .eq⟩
    · obtain ⟨w3, hw3, rfl⟩ := ask_ws h
      have := (hh.values hp hw1 hw2 hop hw3).lit.here
      exact .inl (by simpa using this)
    · obtain ⟨-, h6⟩ := okR.1 h6
      have hv := ValuesDue.mk hq hp hw1 hw2 hop (rule_ws.1 h6).2.2.1
      rw [show pre ++ (p1 ++ (w1 ++ ':' :: (w2 ++ (o ++ w3)))) = pre ++ p1 ++ w1 ++ [':'] ++ w2 ++ o ++ w3 by simp] at hv
      exact ask_valueList hv (ask_label h)
  · exact h.elim

theorem TextHole.notWord {k : Str} (h : TextHole E .not pre) (hk : NotWord k) : TextHole E .cmp (pre ++ k) := by
  intro t n ht
  rw [List.append_assoc]
  exact h _ _ (.not hk ht)

theorem not_viable {N : Nat} (hc : ViableTo E ctx .cmp N) : ViableTo E ctx .not N := by
  intro fr pre s q hN hq h
  have hh := hq.hole
  replace h : Ask E ctx (.rule .NotClause) fr pre s q := h
  replace h := ask_rule h
  rw [grammar_not] at h
  replace h := ask_choice h
  rcases h with h | ⟨-, h | ⟨-, h⟩⟩
  · replace h := ask_seq (ask_action h)
    rcases h with h | ⟨_, t, _, _, h0, h | ⟨_, w, _, _, h1, h⟩⟩
    · replace h := ask_choice (ask_rule h)
      rcases h with h | ⟨-, h | ⟨-, h⟩⟩
      · replace h := ask_seq h
        rcases h with h | ⟨_, _, _, _, k, h | ⟨_, _, _, _, -, h⟩⟩
        · rw [ask_lit h]; exact .inl (hh.here .not)
        · obtain ⟨w, hw, rfl⟩ := ask_space h
          obtain ⟨-, rfl, -, -⟩ := ok_lit.1 k
          by_cases hn : w = []
          · subst hn
            refine .inl ((((hh.notWord (.word space_one)).here .cmp)).cut ⟨[' '], by simp⟩)
          · refine .inl ((((hh.notWord (.word ⟨hw, hn⟩)).here .cmp)).cut (by simp))
        · exact h.elim
      · replace h := ask_seq h
        rcases h with h | ⟨_, _, _, _, k, h | ⟨_, _, _, _, -, h⟩⟩
        · rw [ask_lit h]; exact .inl (hh.here .not)
        · obtain ⟨w, hw, rfl⟩ := ask_space (ask_opt h)
          obtain ⟨-, rfl, -, -⟩ := ok_lit.1 k
          refine .inl ((((hh.notWord (.bang hw)).here .cmp)).cut (by simp))
        · exact h.elim
      · exact h.elim
    · have e := (okR.1 h0).2.split
      subst e
      exact hc (by simp at hN; omega) (.not hq (logicalNOT_of (okR.1 h0).2)) (ask_label h)
    · exact h.elim
  · exact hc hN (.notCmp hq) h
  · exact h.elim

theorem bin_viable {N : Nat} {L M : Level} {act : Act} {x : Rule} {kw : Rule} {f1 f2 : PLabel} {word : Str} (hx : ruleOf L = x)
    (hg : grammar x = .choice [.action act (.seq [.label f1 (.rule (ruleOf M)), .rule .space,
      .rule kw, .rule .space, .label f2 (.rule x)]), .rule (ruleOf M)])
    (hw : Shy E (.rule kw)) (hk : ∀ {ctx pre s v a b}, RuleOk E ctx kw pre s v a b → a = word) (hne : word ≠ [])
    (hlift : ∀ {pre}, Opens E L pre → Opens E M pre)
    (hbin : ∀ {pre a l w1 w2 b r}, Text E M pre a l → Space w1 → Space w2 → Text E L (pre ++ (a ++ (w1 ++ (word ++ w2)))) b r →
      ∃ n, Text E L pre (a ++ (w1 ++ (word ++ (w2 ++ b)))) n)
    (hopen : ∀ {pre a l w1 w2}, Opens E L pre → Text E M pre a l → Space w1 → Space w2 → Opens E L (pre ++ (a ++ (w1 ++ (word ++ w2)))))
    (ih : ∀ K < N, ViableTo E ctx L K) (hc : ViableTo E ctx M N) : ViableTo E ctx L N := by
  intro fr pre s q hN hq h
  have hh := hq.hole
  rw [hx] at h
  replace h := ask_rule h
  rw [hg] at h
  have hm : Opens E M pre := hlift hq
  replace h := ask_choice h
  rcases h with h | ⟨-, h | ⟨-, h⟩⟩
  · have hr : ∀ {a l w1 w2}, Text E M pre a l → Space w1 → Space w2 → TextHole E L (pre ++ a ++ w1 ++ word ++ w2) := by
      intro a l w1 w2 ha h1 h2 t n ht
      rw [show pre ++ a ++ w1 ++ word ++ w2 = pre ++ (a ++ (w1 ++ (word ++ w2))) by simp] at ht ⊢
      obtain ⟨n, hb⟩ := hbin ha h1 h2 ht
      have := hh _ _ hb
      simpa using this
    have hs : ∀ {p w t : Str}, Ws w → (∀ w, Space w → Beginning E (p ++ (w ++ t))) → Beginning E (p ++ w) := by
      intro p w t hw h
      by_cases hn : w = []
      · subst hn
        exact (h _ space_one).cut (by simp)
      · exact (h _ ⟨hw, hn⟩).cut ⟨t, by simp⟩
    replace h := ask_seq (ask_action h)
    rcases h with h | ⟨_, t, _, _, h0, h | ⟨_, w, _, _, h1, h | ⟨_, o, _, _, h2, h | ⟨_, w2, _, _, h3, h |
      ⟨_, _, _, _, -, h⟩⟩⟩⟩⟩
    · exact hc hN hm (ask_label h)
    all_goals try exact h.elim
    all_goals
      have e0 := h0.1
      obtain ⟨-, _, h0⟩ := ok_label.1 h0
      obtain ⟨n, -, ht⟩ := clause_sound (L := M) (okR.1 h0).2
    · obtain ⟨w, hw, rfl⟩ := ask_space h
      refine .inl (hs (t := word) hw fun w hw => ?_)
      exact ((hr ht hw space_one).here L).cut ⟨[' '], by simp⟩
    all_goals
      have e1 := (okR.1 h1).2.split
      have hw1 := (rule_space.1 (okR.1 h1).2).2.2.1
    · rw [hw _ _ _ _ _ h]
      exact .inl (((hr ht hw1 space_one).here L).cut ⟨word ++ [' '], by simp⟩)
    all_goals
      have e2 := (okR.1 h2).2.split
      have eo := hk (okR.1 h2).2
      subst eo
    · obtain ⟨w2, hw2, rfl⟩ := ask_space h
      refine .inl (hs (t := []) hw2 fun w hw => ?_)
      rw [List.append_nil]
      exact (hr ht hw1 hw).here L
    · have e3 := (okR.1 h3).2.split
      subst e3
      subst e2
      subst e1
      subst e0
      have hl : o.length ≠ 0 := fun h => hne (List.length_eq_zero_iff.1 h)
      rw [← hx] at h
      refine ih (N - 1) ?_ ?_ (by simpa using hopen hq ht hw1 (rule_space.1 (okR.1 h3).2).2.2.1) (ask_label h)
      · simp at hN; omega
      · simp at hN; omega
  · exact hc hN hm h
  · exact h.elim

theorem viable_to (N : Nat) : ∀ L, ViableTo E ctx L N := by
  induction N using Nat.strong_induction_on with
  | _ N ih =>
    have hc : ViableTo E ctx .cmp N := cmp_viable fun M hM => ih M hM .or
    have hn := not_viable hc
    have ha : ViableTo E ctx .and N := bin_viable (x := .AndClause) (M := .not) rfl grammar_and (shy_rule shy_lit)
      (fun h => (logicalAND_iff.1 h).1) (by simp) .andNot (fun h1 h2 h3 h4 => ⟨_, .and h1 h2 h3 h4⟩) .and (fun M hM => ih M hM .and) hn
    have ho : ViableTo E ctx .or N := bin_viable (x := .OrClause) (M := .and) rfl grammar_or (shy_rule shy_lit)
      (fun h => (logicalOR_iff.1 h).1) (by simp) .orAnd (fun h1 h2 h3 h4 => ⟨_, .or h1 h2 h3 h4⟩) .or (fun M hM => ih M hM .or) ha
    intro L
    cases L <;> assumption

/-- A run without errors over a whole text tests it only where it can be completed, or within a time or a network. -/
theorem ask_start (h : Ask E ctx (grammar .Start) fr [] s q) : Viable E q := by
  have hl : ∀ {w w2 : Str}, Ws w → Ws w2 → ∀ t n, Text E .or w t n → Beginning E (w ++ t ++ w2) :=
    fun hw hw2 t n ht => ⟨[], n, _, t, _, hw, hw2, ht, by simp⟩
  have hh : ∀ {w : Str}, Ws w → TextHole E .or w := by
    intro w hw t n ht
    simpa using hl hw ws_nil t n ht
  rw [show grammar .Start = .action .onStart1 (.seq [.label .query (.rule .Query), .rule .EOF]) from rfl] at h
  replace h := ask_seq (ask_action h)
  rcases h with h | ⟨_, t, _, _, h0, h | ⟨_, w, _, _, -, h⟩⟩
  · replace h := ask_rule (ask_label h)
    rw [show grammar .Query = .action .onQuery1 (.seq [.rule .ws, .label .clause (.rule .OrClause), .rule .ws]) from rfl] at h
    replace h := ask_seq (ask_action h)
    rcases h with h | ⟨_, t, _, _, h1, h | ⟨_, w, _, _, h2, h | ⟨_, w, _, _, -, h⟩⟩⟩
    · obtain ⟨w, hw, rfl⟩ := ask_ws h
      exact .inl ((hh hw).here .or)
    · exact viable_to _ .or (Nat.le_refl _) (.start (rule_ws.1 (okR.1 h1).2).2.2.1) (ask_label h)
    · have hw := (rule_ws.1 (okR.1 h1).2).2.2.1
      obtain ⟨-, _, h2⟩ := ok_label.1 h2
      obtain ⟨n, -, ht⟩ := clause_sound (L := .or) (okR.1 h2).2
      obtain ⟨w2, hw2, rfl⟩ := ask_ws h
      exact .inl (hl hw hw2 _ _ ht)
    · exact h.elim
  · rw [ask_any (ask_not (ask_rule h))]
    obtain ⟨-, _, h0⟩ := ok_label.1 h0
    obtain ⟨-, _, h0⟩ := okR.1 h0
    rw [show grammar .Query = .action .onQuery1 (.seq [.rule .ws, .label .clause (.rule .OrClause), .rule .ws]) from rfl,
      ok_action] at h0
    obtain ⟨_, h0, -⟩ := h0
    simp only [ok_seq, OkS, ok_label, okR] at h0
    obtain ⟨_, w, _, _, ⟨rfl, h1⟩, _, rfl, _, t, _, _, ⟨rfl, _, rfl, h2⟩, _, rfl, _, w2, _, _, ⟨rfl, h3⟩, _, rfl, rfl, -⟩ := h0
    obtain ⟨n, -, ht⟩ := clause_sound (L := .or) h2
    exact .inl (by simpa using hl (rule_ws.1 h1).2.2.1 (rule_ws.1 h3).2.2.1 _ _ ht)
  · exact h.elim

end Aql
