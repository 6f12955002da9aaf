import Verif.Proofs.Reopen
/-!
What a query contains at a place where an expression, a value or a literal is expected.
-/

namespace Aql

open Spec

variable {E : Env} {q s a b : Str}

/-- What follows white space, where it may follow an expression. -/
theorem fEnd_split {p : Str → Prop} {w t : Str} (h : FEnd p (w ++ t)) (hw : Ws w) (ht : NoHead IsWs t)
    (hp : ∀ t, p t → AndNext t ∨ OrNext t) : t = [] ∨ (∃ u, t = ')' :: u) ∨ (w ≠ [] ∧ p t) := by
  obtain ⟨w', t', e, hw', h'⟩ := h
  have := span_unique e hw hw' ht (fEnd_notWs hp h')
  subst this
  rw [List.append_cancel_left e]
  exact h'

theorem text_same {L : Level} {a' b' : Str} {n n' : Node} (h : Text E L q a n) (hb : Follow L b) (h' : Text E L q a' n')
    (hb' : Follow L b') (e : a ++ b = a' ++ b') : a = a' ∧ b = b' := by
  have k := clause_complete (ctx := ⟨false, []⟩) h hb
  have k' := clause_complete (ctx := ⟨false, []⟩) h' hb'
  rw [← e] at k'
  have k : Ok E ⟨false, []⟩ (.rule (ruleOf L)) [] q (a ++ b) (.node n) a b [] := okR.2 ⟨rfl, k⟩
  have := k.det (okR.2 ⟨rfl, k'⟩)
  exact ⟨this.2.1, this.2.2.1⟩

/-- A query contains an expression of a level wherever one is expected. -/
theorem opens_read {L : Level} (h : Opens E L q) : ∀ {s n}, NoHead IsWs s →
    (L = .cmp → (∀ ctx fr, No E ctx notAlt fr q s) ∧ NoHead (· = ':') s) → Query E (q ++ s) n →
    ∃ a b m, s = a ++ b ∧ Text E L q a m ∧ Follow L b := by
  induction h with
  | @start w hw =>
    rintro s n hs - ⟨w1, t, w2, h1, h2, ht, e⟩
    have := span_unique e hw h1 hs (text_notWs ht)
    subst this
    exact ⟨t, w2, n, List.append_cancel_left e, ht, w2, [], by simp, h2, .inl rfl⟩
  | @group q w hq hw ih =>
    intro s n hs _ hQ
    rw [List.append_assoc, List.cons_append] at hQ
    obtain ⟨a, b, m, e, ht, hb⟩ := ih (by rw [noHead_cons]; decide)
      (fun _ => ⟨fun ctx fr => notAlt_head (by decide) (by decide), by rw [noHead_cons]; decide⟩) hQ
    cases ht with
    | @group _ w1 s' w2 _ h1 ht h2 =>
      have e : w ++ s = w1 ++ (s' ++ (w2 ++ ')' :: b)) := by simpa using e
      have := span_unique e hw h1 hs (text_notWs ht)
      subst this
      exact ⟨s', _, m, List.append_cancel_left e, ht, w2, ')' :: b, rfl, h2, .inr (.inl ⟨b, rfl⟩)⟩
    | noArgs hp _ _ _ et =>
      rw [et, List.append_assoc] at e
      exact noHead_cons.1 (show NoHead (· = '(') ('(' :: (w ++ s)) from e ▸ path_noParen hp) rfl |>.elim
    | compare hp _ _ _ _ _ et =>
      rw [et, List.append_assoc] at e
      exact noHead_cons.1 (show NoHead (· = '(') ('(' :: (w ++ s)) from e ▸ path_noParen hp) rfl |>.elim
  | @or q a n w1 w2 hq ha h1 h2 ih =>
    intro s m hs _ hQ
    have e0 : q ++ (a ++ (w1 ++ ("OR".toList ++ w2))) ++ s = q ++ (a ++ (w1 ++ ("OR".toList ++ (w2 ++ s)))) := by simp
    rw [e0] at hQ
    obtain ⟨A, B, m', e, ht, hB⟩ := ih (text_notWs ha) (fun h => by cases h) hQ
    have hfol : Follow .and (w1 ++ ("OR".toList ++ (w2 ++ s))) := ⟨w1, _, rfl, h1.1, .inr (.inr ⟨h1.2, ⟨_, rfl⟩⟩)⟩
    cases ht with
    | orAnd ht =>
      obtain ⟨rfl, rfl⟩ := text_same ha hfol ht (hB.mono fun _ h => h.elim) e
      rcases fEnd_split hB h1.1 (noHead_cons.2 (by decide)) (fun _ h => h.elim) with h | ⟨u, h⟩ | ⟨-, h⟩
      · cases h
      · cases h
      · exact h.elim
    | @or _ a' _ v1 v2 b' r ha' k1 k2 hr =>
      have e : a ++ (w1 ++ ("OR".toList ++ (w2 ++ s))) = a' ++ (v1 ++ ("OR".toList ++ (v2 ++ (b' ++ B)))) := by simpa using e
      obtain ⟨rfl, e'⟩ := text_same ha hfol ha' ⟨v1, _, rfl, k1.1, .inr (.inr ⟨k1.2, ⟨_, rfl⟩⟩)⟩ e
      have := span_unique e' h1.1 k1.1 (noHead_cons.2 (by decide)) (noHead_cons.2 (by decide))
      subst this
      have e := List.append_cancel_left (List.append_cancel_left e')
      have := span_unique e h2.1 k2.1 hs (text_notWs hr)
      subst this
      exact ⟨b', B, _, List.append_cancel_left e, hr, hB⟩
  | @orAnd q hq ih =>
    intro s m hs _ hQ
    obtain ⟨A, B, m', e, ht, hB⟩ := ih hs (fun h => by cases h) hQ
    cases ht with
    | orAnd ht => exact ⟨A, B, _, e, ht, hB.mono fun _ h => h.elim⟩
    | @or _ a' _ v1 v2 b' r ha' k1 k2 hr =>
      exact ⟨a', v1 ++ ("OR".toList ++ (v2 ++ (b' ++ B))), _, by simpa using e, ha', v1, _, rfl, k1.1, .inr (.inr ⟨k1.2, ⟨_, rfl⟩⟩)⟩
  | @and q a n w1 w2 hq ha h1 h2 ih =>
    intro s m hs _ hQ
    have e0 : q ++ (a ++ (w1 ++ ("AND".toList ++ w2))) ++ s = q ++ (a ++ (w1 ++ ("AND".toList ++ (w2 ++ s)))) := by simp
    rw [e0] at hQ
    obtain ⟨A, B, m', e, ht, hB⟩ := ih (text_notWs ha) (fun h => by cases h) hQ
    have hfol : Follow .not (w1 ++ ("AND".toList ++ (w2 ++ s))) := ⟨w1, _, rfl, h1.1, .inr (.inr ⟨h1.2, .inl ⟨_, rfl⟩⟩)⟩
    cases ht with
    | andNot ht =>
      obtain ⟨rfl, rfl⟩ := text_same ha hfol ht (hB.mono fun _ h => .inr h) e
      rcases fEnd_split hB h1.1 (noHead_cons.2 (by decide)) (fun _ h => .inr h) with h | ⟨u, h⟩ | ⟨-, u, h⟩
      · cases h
      · cases h
      · cases h
    | @and _ a' _ v1 v2 b' r ha' k1 k2 hr =>
      have e : a ++ (w1 ++ ("AND".toList ++ (w2 ++ s))) = a' ++ (v1 ++ ("AND".toList ++ (v2 ++ (b' ++ B)))) := by simpa using e
      obtain ⟨rfl, e'⟩ := text_same ha hfol ha' ⟨v1, _, rfl, k1.1, .inr (.inr ⟨k1.2, .inl ⟨_, rfl⟩⟩)⟩ e
      have := span_unique e' h1.1 k1.1 (noHead_cons.2 (by decide)) (noHead_cons.2 (by decide))
      subst this
      have e := List.append_cancel_left (List.append_cancel_left e')
      have := span_unique e h2.1 k2.1 hs (text_notWs hr)
      subst this
      exact ⟨b', B, _, List.append_cancel_left e, hr, hB⟩
  | @andNot q hq ih =>
    intro s m hs _ hQ
    obtain ⟨A, B, m', e, ht, hB⟩ := ih hs (fun h => by cases h) hQ
    cases ht with
    | andNot ht => exact ⟨A, B, _, e, ht, hB.mono fun _ h => .inr h⟩
    | @and _ a' _ v1 v2 b' r ha' k1 k2 hr =>
      exact ⟨a', v1 ++ ("AND".toList ++ (v2 ++ (b' ++ B))), _, by simpa using e, ha', v1, _, rfl, k1.1, .inr (.inr ⟨k1.2, .inl ⟨_, rfl⟩⟩)⟩
  | @not q k hq hk ih =>
    intro s m hs hc hQ
    rw [List.append_assoc] at hQ
    have hws : NoHead IsWs (k ++ s) := by cases hk <;> exact noHead_cons.2 (by decide)
    obtain ⟨A, B, m', e, ht, hB⟩ := ih hws (fun h => by cases h) hQ
    cases ht with
    | @not _ k' s' n' hk' ht =>
      rw [List.append_assoc] at e
      have hs' : NoHead IsWs (s' ++ B) := text_notWs ht
      have : k = k' := by
        cases hk with
        | word h =>
          cases hk' with
          | word h' =>
            rw [span_unique (List.append_cancel_left (as := "NOT".toList) e) h.1 h'.1 hs hs']
          | bang => cases e
        | bang h =>
          cases hk' with
          | word h' => cases e
          | bang h' => rw [span_unique (List.append_cancel_left (as := ['!']) e) h h' hs hs']
      subst this
      exact ⟨s', B, _, List.append_cancel_left e, ht, hB⟩
    | notCmp ht =>
      exfalso
      have path : ∀ {p xs w1 r}, Path E p xs → Ws w1 → k ++ s = p ++ (w1 ++ ':' :: r) → False := by
        intro p xs w1 r hp h1 e
        cases hk with
        | @word w h =>
          have hN := path_NOT (r := r) (w := w) (t := s) hp h1 (by rw [← e]; simp) h
          subst hN
          have e := List.append_cancel_left (as := "NOT".toList) e
          have := span_unique e h.1 h1 hs (noHead_cons.2 (by decide))
          subst this
          have := (hc rfl).2
          rw [List.append_cancel_left e, noHead_cons] at this
          exact this rfl
        | bang h =>
          obtain ⟨c, t, rfl, hc⟩ := path_head hp
          exact head_not hc (by decide) (by decide) (List.cons.inj e).1.symm
      cases ht with
      | group => cases hk <;> cases e
      | noArgs hp h1 _ _ et =>
        subst et
        exact path hp h1 (e.trans (by simp; rfl))
      | compare hp h1 _ _ _ _ et =>
        subst et
        exact path hp h1 (e.trans (by simp; rfl))
  | @notCmp q hq ih =>
    intro s m hs hc hQ
    obtain ⟨A, B, m', e, ht, hB⟩ := ih hs (fun h => by cases h) hQ
    cases ht with
    | notCmp ht => exact ⟨A, B, _, e, ht, hB⟩
    | @not _ k' s' n' hk' ht =>
      exfalso
      subst e
      obtain ⟨v, hv⟩ := logicalNOT_ok (E := E) (ctx := ⟨false, []⟩) (pre := q) (b := s' ++ B) hk' (text_notWs ht)
      have h2 := clause_complete (ctx := ⟨false, []⟩) ht hB
      have := (hc rfl).1 ⟨false, []⟩ []
      simp only [no_action, no_seq, NoS, noR, no_label, List.append_assoc] at this
      rcases this with h | ⟨_, _, _, _, h, h' | h'⟩
      · exact Ok.clash (fr := []) (okR.2 ⟨rfl, hv⟩) (noR.2 h)
      · obtain ⟨-, rfl, rfl, -⟩ := Ok.det h (okR.2 ⟨rfl, hv⟩)
        exact Ok.clash (fr := []) (okR.2 ⟨rfl, h2⟩) (noR.2 h')
      · obtain ⟨_, _, _, _, _, h⟩ := h'
        exact h

/-! ### Values and literals -/

theorem path_same {p p' w w' r r' : Str} {xs xs' : List Str} (h : Path E p xs) (h' : Path E p' xs') (hw : Ws w) (hw' : Ws w')
    (e : p ++ (w ++ ':' :: r) = p' ++ (w' ++ ':' :: r')) : p = p' ∧ w = w' ∧ r = r' := by
  have hf := colon_follow (E := E) (r := r) hw
  have hf' := colon_follow (E := E) (r := r') hw'
  have k : Ok E ⟨false, []⟩ (.rule .Field) [] [] (p ++ (w ++ ':' :: r)) _ p (w ++ ':' :: r) [] := okR.2 ⟨rfl, field_ok h hf.1 hf.2⟩
  have k' : RuleOk E ⟨false, []⟩ .Field [] (p' ++ (w' ++ ':' :: r')) _ p' (w' ++ ':' :: r') := field_ok h' hf'.1 hf'.2
  rw [← e] at k'
  obtain ⟨-, rfl, e', -⟩ := k.det (okR.2 ⟨rfl, k'⟩)
  have := span_unique e' hw hw' (noHead_cons.2 (by decide)) (noHead_cons.2 (by decide))
  subst this
  exact ⟨rfl, rfl, (List.cons.inj (List.append_cancel_left e')).2⟩

theorem lit_split_same {a' b' : Str} {v v' : Val} (h : Lit E q a v) (hb : FLit b) (h' : Lit E q a' v')
    (hb' : FLit b') (e : a ++ b = a' ++ b') : a = a' ∧ b = b' := by
  have k : Ok E ⟨false, []⟩ (.rule .Value) [] q (a ++ b) _ a b [] := okR.2 ⟨rfl, lit_value h hb⟩
  have k' := lit_value (ctx := ⟨false, []⟩) h' hb'
  rw [← e] at k'
  have := k.det (okR.2 ⟨rfl, k'⟩)
  exact ⟨this.2.1, this.2.2.1⟩

/-- White space and the characters of the operators. -/
def OpLike (c : Char) : Prop := IsWs c ∨ c = '<' ∨ c = '>' ∨ c = '=' ∨ c = '~'

instance (c : Char) : Decidable (OpLike c) := by unfold OpLike; infer_instance

theorem opLike_all {w2 o w3 : Str} {op : Op} (h2 : Ws w2) (ho : OpText o op) (h3 : Ws w3) : ∀ c ∈ w2 ++ (o ++ w3), OpLike c := by
  intro c hc
  rcases List.mem_append.1 hc with hc | hc
  · exact .inl (h2 c hc)
  rcases List.mem_append.1 hc with hc | hc
  · right
    cases ho <;> simp at hc <;> tauto
  · exact .inl (h3 c hc)

theorem litHead_opLike {c : Char} (h : LitHead c) : ¬ OpLike c := by
  rintro ((rfl | rfl | rfl | rfl) | rfl | rfl | rfl | rfl) <;> revert h <;> decide

/-- A query contains the values of a comparison where they are expected. -/
theorem due_values {c : Char} {n : Node} (hd : ValuesDue E q) (hc : Dig c ∨ c = '(') (hQ : Query E (q ++ c :: s) n) :
    ∃ a b vs, c :: s = a ++ b ∧ Values E q a vs ∧ Follow .cmp b := by
  have hcl : ¬ OpLike c := by
    rcases hc with hc | rfl
    · exact litHead_opLike (.inr (.inr (.inl hc)))
    · decide
  have hce : c ≠ 'e' ∧ c ≠ 'n' := by
    constructor <;> rintro rfl <;> revert hc <;> decide
  cases hd with
  | @mk q p xs w1 w2 o op w3 hq hp h1 h2 ho h3 =>
    have e0 : q ++ (p ++ (w1 ++ ':' :: (w2 ++ (o ++ w3)))) ++ c :: s = q ++ (p ++ (w1 ++ ':' :: (w2 ++ (o ++ w3) ++ c :: s))) := by simp
    rw [e0] at hQ
    obtain ⟨a, b, m, e, ht, hb⟩ := opens_read hq (path_notWs hp) (fun _ => ⟨fun ctx fr => notAlt_path hp h1, by
      obtain ⟨c, t, rfl, hc⟩ := path_head hp
      rw [List.cons_append, noHead_cons]
      exact head_not hc (by decide) (by decide)⟩) hQ
    cases ht with
    | group => exact (noHead_cons.1 (show NoHead (· = '(') ('(' :: _) from e ▸ path_noParen hp) rfl).elim
    | @noArgs _ p' xs' v1 v2 o' op' _ hp' k1 k2 ho' et =>
      subst et
      obtain ⟨rfl, rfl, e'⟩ := path_same (r := w2 ++ (o ++ w3) ++ c :: s) (r' := v2 ++ (o' ++ b)) hp hp' h1 k1 (by simpa using e)
      have ho'' : ∃ d u, o' = d :: u ∧ ¬ OpLike d ∧ (d = 'e' ∨ d = 'n') := by
        cases ho'
        · exact ⟨'e', _, rfl, by decide, .inl rfl⟩
        · exact ⟨'n', _, rfl, by decide, .inr rfl⟩
      obtain ⟨d, u, rfl, hd, hd'⟩ := ho''
      have := span_unique e' (opLike_all h2 ho h3) (fun c hc => .inl (k2 c hc)) (noHead_cons.2 hcl) (noHead_cons.2 hd)
      rw [this] at e'
      have := (List.cons.inj (List.append_cancel_left e')).1
      subst this
      rcases hd' with h | h
      · exact (hce.1 h).elim
      · exact (hce.2 h).elim
    | @compare _ p' xs' v1 v2 o' op' v3 u vs _ hp' k1 k2 ho' k3 hv et =>
      subst et
      obtain ⟨rfl, rfl, e'⟩ := path_same (r := w2 ++ (o ++ w3) ++ c :: s) (r' := v2 ++ (o' ++ v3) ++ (u ++ b)) hp hp' h1 k1 (by simpa using e)
      have := span_unique e' (opLike_all h2 ho h3) (opLike_all k2 ho' k3) (noHead_cons.2 hcl)
        (values_noHead hv (by decide) fun c hc => litHead_opLike hc)
      rw [this] at e'
      rw [← this] at hv
      exact ⟨u, b, vs, List.append_cancel_left e', hv, hb⟩

theorem litHead_notWs {c : Char} (h : LitHead c) : ¬ IsWs c := fun hw => litHead_opLike h (.inl hw)

theorem items_notWs {xs : List Val} (h : Items E q a xs) : NoHead IsWs (a ++ b) := by
  cases h with
  | one h => exact lit_noHead h fun c => litHead_notWs
  | cons h => rw [List.append_assoc]; exact lit_noHead h fun c => litHead_notWs

/-- The first of several literals. -/
theorem items_first {xs : List Val} {w r : Str} (h : Items E q a xs) (hw : Ws w) :
    ∃ x y v, a ++ (w ++ ')' :: r) = x ++ y ∧ Lit E q x v ∧ FLit y := by
  cases h with
  | one h => exact ⟨_, _, _, rfl, h, fLit_ws hw (.inl rfl)⟩
  | @cons _ t v w1 w2 s vs h h1 h2 hs =>
    exact ⟨t, w1 ++ ',' :: (w2 ++ (s ++ (w ++ ')' :: r))), v, by simp, h, fLit_ws h1 (.inr rfl)⟩

theorem comma_paren {w w' r r' : Str} (hw : Ws w) (hw' : Ws w') : w ++ ',' :: r ≠ w' ++ ')' :: r' := by
  intro e
  have := span_unique e hw hw' (noHead_cons.2 (by decide)) (noHead_cons.2 (by decide))
  subst this
  cases List.append_cancel_left e

theorem comma_same {w w' v v' r r' : Str} (hw : Ws w) (hw' : Ws w') (hv : Ws v) (hv' : Ws v') (hr : NoHead IsWs r) (hr' : NoHead IsWs r')
    (e : w ++ ',' :: (v ++ r) = w' ++ ',' :: (v' ++ r')) : w = w' ∧ v = v' ∧ r = r' := by
  have := span_unique e hw hw' (noHead_cons.2 (by decide)) (noHead_cons.2 (by decide))
  subst this
  have e := (List.cons.inj (List.append_cancel_left e)).2
  have := span_unique e hv hv' hr hr'
  subst this
  exact ⟨rfl, rfl, List.append_cancel_left e⟩

/-- The literal behind several others. -/
theorem items_next {xs : List Val} {w1 w2 : Str} {c : Char} (h : Items E q a xs) (h1 : Ws w1) (h2 : Ws w2) (hc : ¬ IsWs c) :
    ∀ {T ys w r}, Items E q T ys → Ws w → a ++ (w1 ++ ',' :: (w2 ++ c :: s)) = T ++ (w ++ ')' :: r) →
    ∃ x y v, c :: s = x ++ y ∧ Lit E (q ++ (a ++ (w1 ++ ',' :: w2))) x v ∧ FLit y := by
  induction h with
  | @one q t v h =>
    intro T ys w r hT hw e
    cases hT with
    | one h' =>
      exact absurd (lit_split_same h (fLit_ws h1 (.inr rfl)) h' (fLit_ws hw (.inl rfl)) e).2 (comma_paren h1 hw)
    | @cons _ t' v' u1 u2 S vs h' k1 k2 hS =>
      obtain ⟨rfl, e1⟩ := lit_split_same (b' := u1 ++ ',' :: (u2 ++ (S ++ (w ++ ')' :: r)))) h (fLit_ws h1 (.inr rfl)) h'
        (fLit_ws k1 (.inr rfl)) (by simpa using e)
      obtain ⟨rfl, rfl, e2⟩ := comma_same h1 k1 h2 k2 (noHead_cons.2 hc) (items_notWs hS) e1
      rw [e2]
      exact items_first hS hw
  | @cons q t v u1 u2 S vs h k1 k2 hS ih =>
    intro T ys w r hT hw e
    have e : t ++ (u1 ++ ',' :: (u2 ++ (S ++ (w1 ++ ',' :: (w2 ++ c :: s))))) = T ++ (w ++ ')' :: r) := by simpa using e
    cases hT with
    | one h' =>
      exact absurd (lit_split_same h (fLit_ws k1 (.inr rfl)) h' (fLit_ws hw (.inl rfl)) e).2 (comma_paren k1 hw)
    | @cons _ t' v' u1' u2' S' vs' h' k1' k2' hS' =>
      obtain ⟨rfl, e1⟩ := lit_split_same (b' := u1' ++ ',' :: (u2' ++ (S' ++ (w ++ ')' :: r)))) h (fLit_ws k1 (.inr rfl)) h'
        (fLit_ws k1' (.inr rfl)) (by simpa using e)
      obtain ⟨rfl, rfl, e2⟩ := comma_same k1 k1' k2 k2' (items_notWs hS) (items_notWs hS') e1
      obtain ⟨x, y, v, e3, hl, hy⟩ := ih hS' hw e2
      exact ⟨x, y, v, e3, by simpa using hl, hy⟩

/-- A query contains a literal where one is expected. -/
theorem due_lit {c : Char} {n : Node} (hd : LitDue E q) (hc : Dig c) (hQ : Query E (q ++ c :: s) n) :
    ∃ a b v, c :: s = a ++ b ∧ Lit E q a v ∧ FLit b := by
  have hcw : ¬ IsWs c := litHead_notWs (.inr (.inr (.inl hc)))
  have noOne : ∀ {pre r b a v}, Lit E pre r v → '(' :: a = r ++ b → False := by
    intro pre r b a v h e
    exact noHead_cons.1 (show NoHead (· = '(') ('(' :: a) from e ▸ lit_noHead h (by rintro c hc rfl; revert hc; decide)) rfl
  cases hd with
  | one hd =>
    obtain ⟨a, b, vs, e, hv, hb⟩ := due_values hd (.inl hc) hQ
    cases hv with
    | one h => exact ⟨a, b, _, e, h, follow_lit hb⟩
    | list =>
      cases e
      exact absurd hc (by decide)
  | @first q w hd hw =>
    rw [List.append_assoc, List.cons_append] at hQ
    obtain ⟨a, b, vs, e, hv, hb⟩ := due_values hd (.inr rfl) hQ
    cases hv with
    | one h => exact (noOne h e).elim
    | @list w1 w2 t vs h1 hi h2 h3 =>
      have e : w ++ c :: s = w1 ++ (t ++ (w2 ++ ')' :: b)) := by simpa using e
      have := span_unique e hw h1 (noHead_cons.2 hcw) (items_notWs hi)
      subst this
      rw [List.append_cancel_left e]
      exact items_first hi h3
  | @next q w t xs w1 w2 hd hw hi h1 h2 =>
    have e0 : q ++ '(' :: w ++ (t ++ (w1 ++ ',' :: w2)) ++ c :: s = q ++ '(' :: (w ++ (t ++ (w1 ++ ',' :: (w2 ++ c :: s)))) := by simp
    rw [e0] at hQ
    obtain ⟨a, b, vs, e, hv, hb⟩ := due_values hd (.inr rfl) hQ
    cases hv with
    | one h => exact (noOne h e).elim
    | @list v1 v2 t' vs k1 hi' k2 k3 =>
      have e : w ++ (t ++ (w1 ++ ',' :: (w2 ++ c :: s))) = v1 ++ (t' ++ (v2 ++ ')' :: b)) := by simpa using e
      have := span_unique e hw k1 (items_notWs hi) (items_notWs hi')
      subst this
      exact items_next hi h1 h2 hcw hi' k3 (List.append_cancel_left e)

end Aql
