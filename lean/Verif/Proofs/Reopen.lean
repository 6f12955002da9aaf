import Verif.Proofs.FlawStart
/-!
What comes before a wrong value or name can be completed, and can be followed by others.
-/

namespace Aql

open Spec

variable {E : Env} {q s a b : Str}

/-- A query has no wrong clause. -/
theorem query_right {v msg : Str} {n : Node} {m : Nat} (h : Query E (q ++ s) n) (hq : Opens E .cmp q) : ¬ WrongClause E q s v msg m := by
  intro hw
  obtain ⟨r, j, -, -, -, hp⟩ := parse_wrong hq hw
  have := (grammarOut_iff (E := E)).2 ⟨_, rfl, h⟩
  unfold grammarOut at this
  rw [hp] at this
  cases this

/-- The values of a comparison, where they are expected. -/
theorem values_fill (hq : Opens E .cmp q) {p xs w1 w2 o op w3} (hp : Path E p xs) (h1 : Ws w1) (h2 : Ws w2)
    (ho : OpText o op) (h3 : Ws w3) {vs} (hs : Values E (q ++ (p ++ (w1 ++ ':' :: (w2 ++ (o ++ w3))))) s vs) :
    Beginning E (q ++ (p ++ (w1 ++ ':' :: (w2 ++ (o ++ (w3 ++ s)))))) :=
  opens_fill hq (.compare hp h1 h2 ho h3 hs rfl)

/-- The first character behind an operator leaves the operator as it is. -/
theorem reopen_op {o w3 : Str} {op : Op} {c : Char} {t : Str} (ho : OpText o op) (hw : Ws w3) (hn : o = [] → w3 = [])
    (hc : c = '"' ∨ c = '/' ∨ c = '(') :
    (∀ k x, NoArgOp k x → ¬ k <+: o ++ (w3 ++ c :: t)) ∧
    ∀ k x, OpText k x → k <+: o ++ (w3 ++ c :: t) → k.length ≤ o.length := by
  obtain ⟨d, u, hd, hd'⟩ : ∃ d u, w3 ++ c :: t = d :: u ∧ (d = '"' ∨ d = '/' ∨ d = '(' ∨ IsWs d) := by
    cases w3 with
    | nil => exact ⟨c, t, rfl, by tauto⟩
    | cons d w => exact ⟨d, _, rfl, .inr (.inr (.inr (hw d (by simp))))⟩
  rw [hd]
  have e1 : '=' ≠ d := by rintro rfl; revert hd'; decide
  have e2 : '<' ≠ d := by rintro rfl; revert hd'; decide
  have e3 : '>' ≠ d := by rintro rfl; revert hd'; decide
  have e4 : '~' ≠ d := by rintro rfl; revert hd'; decide
  have e5 : 'e' ≠ d := by rintro rfl; revert hd'; decide
  have e6 : 'n' ≠ d := by rintro rfl; revert hd'; decide
  constructor
  · rintro k x hk hp
    cases hk <;> cases ho <;> simp_all [List.cons_prefix_cons]
  · rintro k x hk hp
    cases hk <;> cases ho <;> simp_all [List.cons_prefix_cons]

/-- A wrong value with something before it can be replaced by another one with the same first character; before it, any
literal would do. -/
theorem reopen_value {v msg : Str} {n : Nat} (hq : Opens E .cmp q) {p xs w1 w2 o op w3} (hp : Path E p xs) (h1 : Ws w1) (h2 : Ws w2)
    (ho : OpText o op) (h3 : Ws w3) (hn : o = [] → w3 = [])
    (h : WrongValues E (q ++ (p ++ (w1 ++ ':' :: (w2 ++ (o ++ w3))))) s v msg n) :
    (∃ x s' v', s = x ++ s' ∧ v = x ++ v' ∧ WrongValue E s' v' msg n ∧
      (∀ t y, Lit E (q ++ (p ++ (w1 ++ ':' :: (w2 ++ (o ++ (w3 ++ x)))))) t y →
        Beginning E (q ++ (p ++ (w1 ++ ':' :: (w2 ++ (o ++ (w3 ++ (x ++ t)))))))) ∧
      ∀ c t r v2 msg2 n2, (c = '"' ∨ c = '/') → s' = c :: r → WrongValue E (c :: t) v2 msg2 n2 →
        WrongClause E q (p ++ (w1 ++ ':' :: (w2 ++ (o ++ (w3 ++ (x ++ c :: t))))))
          (p ++ (w1 ++ ':' :: (w2 ++ (o ++ (w3 ++ (x ++ v2)))))) msg2 n2) ∨
    v = [] ∧ msg = "unnecessary parenthesis for only one value".toList := by
  have key : ∀ {c t v2 msg2 n2}, (c = '"' ∨ c = '/' ∨ c = '(') →
      WrongValues E (q ++ (p ++ (w1 ++ ':' :: (w2 ++ (o ++ w3))))) (c :: t) v2 msg2 n2 →
      WrongClause E q (p ++ (w1 ++ ':' :: (w2 ++ (o ++ (w3 ++ c :: t))))) (p ++ (w1 ++ ':' :: (w2 ++ (o ++ (w3 ++ v2))))) msg2 n2 := by
    intro c t v2 msg2 n2 hc hw
    exact .values hp h1 h2 ho h3 hn (reopen_op ho h3 hn hc).1 (reopen_op ho h3 hn hc).2 hw
  have one : WrongValue E s v msg n → (∃ x s' v', s = x ++ s' ∧ v = x ++ v' ∧ WrongValue E s' v' msg n ∧
      (∀ t y, Lit E (q ++ (p ++ (w1 ++ ':' :: (w2 ++ (o ++ (w3 ++ x)))))) t y →
        Beginning E (q ++ (p ++ (w1 ++ ':' :: (w2 ++ (o ++ (w3 ++ (x ++ t)))))))) ∧
      ∀ c t r v2 msg2 n2, (c = '"' ∨ c = '/') → s' = c :: r → WrongValue E (c :: t) v2 msg2 n2 →
        WrongClause E q (p ++ (w1 ++ ':' :: (w2 ++ (o ++ (w3 ++ (x ++ c :: t))))))
          (p ++ (w1 ++ ':' :: (w2 ++ (o ++ (w3 ++ (x ++ v2)))))) msg2 n2) := by
    intro h
    refine ⟨[], s, v, rfl, rfl, h, fun t y ht => ?_, fun c t r v2 msg2 n2 hc _ hw => ?_⟩
    · exact values_fill hq hp h1 h2 ho h3 (.one (by simpa using ht))
    · exact key (by tauto) (.one hw (by rintro t h; cases h; rcases hc with h | h <;> cases h))
  cases h with
  | one h _ => exact .inl (one h)
  | broken h _ _ => exact .inl (one h)
  | list h =>
    cases h with
    | @first w s v _ _ hw h =>
      refine .inl ⟨'(' :: w, s, v, by simp, by simp, h, fun t y ht => ?_, fun c t r v2 msg2 n2 hc _ hw2 => ?_⟩
      · have e : q ++ (p ++ (w1 ++ ':' :: (w2 ++ (o ++ (w3 ++ '(' :: w))))) = q ++ (p ++ (w1 ++ ':' :: (w2 ++ (o ++ w3)))) ++ '(' :: w := by simp
        rw [e] at ht
        have := values_fill hq hp h1 h2 ho h3 (.list (w2 := []) hw (.cons (w1 := []) (w2 := []) (s := ['1']) ht ws_nil ws_nil (.one lit_one)) (by simp) ws_nil)
        exact this.cut ⟨",1)".toList, by simp⟩
      · have := key (.inr (.inr rfl)) (.list (.first hw hw2))
        simpa using this
    | @later w u xs' a1 a2 s v _ _ hw hi ha1 ha2 h =>
      refine .inl ⟨'(' :: (w ++ (u ++ (a1 ++ ',' :: a2))), s, v, by simp, by simp, h, fun t y ht => ?_, fun c t r v2 msg2 n2 hc _ hw2 => ?_⟩
      · have e : q ++ (p ++ (w1 ++ ':' :: (w2 ++ (o ++ (w3 ++ '(' :: (w ++ (u ++ (a1 ++ ',' :: a2)))))))) =
          q ++ (p ++ (w1 ++ ':' :: (w2 ++ (o ++ w3)))) ++ '(' :: w ++ (u ++ (a1 ++ ',' :: a2)) := by simp
        rw [e] at ht
        have hl : 1 ≤ xs'.length := by cases hi <;> simp
        have := values_fill hq hp h1 h2 ho h3 (.list (w2 := []) hw (items_snoc hi ha1 ha2 ht) (by simp; omega) ws_nil)
        exact this.cut ⟨")".toList, by simp⟩
      · have := key (.inr (.inr rfl)) (.list (.later hw hi ha1 ha2 hw2))
        simpa using this
    | single => exact .inr ⟨rfl, rfl⟩

/-- The same for names. -/
theorem reopen_name {p : Str} (hq : Opens E .cmp q) (hp : p = [] ∨ ∃ r xs, Path E r xs ∧ p = r ++ ['.']) :
    (∀ t y, Piece E t y → Beginning E (q ++ (p ++ t))) ∧
    ∀ s v msg n, WrongString E s v msg n → WrongClause E q (p ++ s) (p ++ v) msg n := by
  refine ⟨fun t y ht => ?_, fun s v msg n hw => .name hp hw⟩
  have key : ∀ {r xs}, Path E r xs → Beginning E (q ++ r) := by
    intro r xs hr
    have := values_fill (w1 := []) (w2 := []) (o := []) (w3 := []) (s := ['1']) hq hr ws_nil ws_nil .eq ws_nil (.one lit_one)
    exact this.cut ⟨":1".toList, by simp⟩
  rcases hp with rfl | ⟨r, xs, hr, rfl⟩
  · exact key (.one ht)
  · have := key (path_snoc hr ht)
    simpa using this

/-- A spelling goes on as long as it can. -/
theorem stuck_or {P : Str → Prop} {close : Char} (hP : ∀ {x y}, P x → P y → P (x ++ y)) : ∀ (m : Nat) (t post : Str), post.length ≤ m → P t →
    ∃ u z, post = u ++ z ∧ P (t ++ u) ∧ ((∃ r, z = close :: r) ∨ Stuck P close z) := by
  intro m
  induction m with
  | zero =>
    intro t post hl ht
    have : post = [] := List.length_eq_zero_iff.1 (by omega)
    subst this
    refine ⟨[], [], rfl, by simpa using ht, .inr ⟨by simp, ?_⟩⟩
    rintro a b h -
    exact (List.append_eq_nil_iff.1 h.symm).1
  | succ m ih =>
    intro t post hl ht
    by_cases h1 : ∃ r, post = close :: r
    · exact ⟨[], post, rfl, by simpa using ht, .inl h1⟩
    by_cases h2 : ∃ a b, post = a ++ b ∧ P a ∧ a ≠ []
    · obtain ⟨a, b, rfl, ha, hne⟩ := h2
      have : a.length ≠ 0 := fun h => hne (List.length_eq_zero_iff.1 h)
      obtain ⟨u, z, rfl, h3, h4⟩ := ih (t ++ a) b (by simp at hl; omega) (hP ht ha)
      exact ⟨a ++ u, z, by simp, by simpa using h3, h4⟩
    · refine ⟨[], post, rfl, by simpa using ht, .inr ⟨fun r h => h1 ⟨r, h⟩, fun a b h ha => ?_⟩⟩
      by_contra hne
      exact h2 ⟨a, b, h, ha, hne⟩

theorem spelling_add {x y : Str} (hx : Spelling E x) (hy : Spelling E y) : Spelling E (x ++ y) := by
  induction hx with
  | nil => exact hy
  | plain h1 h2 h3 _ ih => exact .plain h1 h2 h3 ih
  | escape h _ ih => exact .escape h ih
  | unicode h1 h2 h3 h4 _ ih => exact .unicode h1 h2 h3 h4 ih

theorem pattern_add {x y : Str} (hx : RegexBody x) (hy : RegexBody y) : RegexBody (x ++ y) := by
  induction hx with
  | nil => exact hy
  | plain h1 h2 h3 _ ih => exact .plain h1 h2 h3 ih
  | escape h _ ih => exact .escape h ih

/-- A string that is no beginning of a string is wrong, however it goes on. -/
theorem string_goes {t : Str} (ht : Spelling E t) (r : Str) : (∃ u y, StrBody (t ++ u) y) ∨
    ∃ v msg n, WrongString E ('"' :: (t ++ r)) v msg n := by
  obtain ⟨u, z, rfl, hu, ⟨r, rfl⟩ | hz⟩ := stuck_or (P := Spelling E) (close := '"') spelling_add r.length t r (Nat.le_refl _) ht
  · by_cases h : ∃ y, StrBody (t ++ u) y
    · obtain ⟨y, h⟩ := h
      exact .inl ⟨u, y, h⟩
    · have := WrongString.half (post := r) hu rfl fun x hx => h ⟨x, hx⟩
      have e : '"' :: (t ++ (u ++ '"' :: r)) = '"' :: (t ++ u ++ ['"']) ++ r := by simp
      rw [e]
      exact .inr ⟨_, _, _, this⟩
  · have := WrongString.unclosed hu hz
    rw [← List.append_assoc]
    exact .inr ⟨_, _, _, this⟩

/-- Every pattern between slashes has a source. -/
theorem pattern_goes {t : Str} (pre : Str) (ht : RegexBody t) (r : Str) : (∃ u y, Lit E pre ('/' :: t ++ u) y) ∨
    ∃ v msg n, WrongValue E ('/' :: (t ++ r)) v msg n := by
  obtain ⟨u, z, rfl, hu, ⟨r, rfl⟩ | hz⟩ := stuck_or (P := RegexBody) (close := '/') pattern_add r.length t r (Nat.le_refl _) ht
  · by_cases h : reCompiles E (trimSlash (unescapeSlash ('/' :: (t ++ u ++ ['/'])))) = true
    · have := Lit.regex (pre := pre) hu rfl (unescaped_iff.2 rfl) (trimmed_iff.2 rfl) h
      have e : '/' :: t ++ (u ++ ['/']) = '/' :: (t ++ u ++ ['/']) := by simp
      exact .inl ⟨u ++ ['/'], _, e ▸ this⟩
    · have := WrongValue.pattern (post := r) hu rfl (unescaped_iff.2 rfl) (trimmed_iff.2 rfl) (Bool.not_eq_true _ ▸ h)
      have e : '/' :: (t ++ (u ++ '/' :: r)) = '/' :: (t ++ u ++ ['/']) ++ r := by simp
      rw [e]
      exact .inr ⟨_, _, _, this⟩
  · have := WrongValue.unclosedPattern (E := E) hu hz
    rw [← List.append_assoc]
    exact .inr ⟨_, _, _, this⟩

/-- Where a string that is not closed could be completed. -/
def StringEnd (E : Env) (p : Str) : Prop :=
  ∃ q t, p = q ++ '"' :: t ∧ Spelling E t ∧ (Beginning E p ↔ ∃ u y, StrBody (t ++ u) y)

/-- Where a pattern that is not closed could be completed. -/
def PatternEnd (E : Env) (p : Str) : Prop :=
  ∃ q t, p = q ++ '/' :: t ∧ RegexBody t ∧ (Beginning E p ↔ ∃ u y, Lit E q ('/' :: t ++ u) y)

theorem before_wrong {v msg : Str} {n : Nat} (hq : Opens E .cmp q) (h : WrongClause E q s v msg n) :
    (msg = "unterminated string, check for missing closing [\"] or unescaped [\\]".toList ∧ StringEnd E (q ++ v)) ∨
    (msg = "unterminated regular expression, did you forget a closing '/'?".toList ∧ PatternEnd E (q ++ v)) ∨
    (msg ≠ "unterminated string, check for missing closing [\"] or unescaped [\\]".toList ∧
      msg ≠ "unterminated regular expression, did you forget a closing '/'?".toList ∧ Beginning E (q ++ v)) := by
  have dif : ∀ {c1 c2 c3 c4 c5 c6 c7 c8 : Char} {t : Str}, [c1, c2, c3, c4, c5, c6, c7, c8] ≠ "untermin".toList →
      (c1 :: c2 :: c3 :: c4 :: c5 :: c6 :: c7 :: c8 :: t) ≠ "unterminated string, check for missing closing [\"] or unescaped [\\]".toList ∧
      (c1 :: c2 :: c3 :: c4 :: c5 :: c6 :: c7 :: c8 :: t) ≠ "unterminated regular expression, did you forget a closing '/'?".toList := by
    intro c1 c2 c3 c4 c5 c6 c7 c8 t hne
    constructor <;> (intro h; apply hne; simp at h; simp [h])
  have string : ∀ {x s' v' msg n}, WrongString E s' v' msg n → (∀ t y, StrBody t y → Beginning E (q ++ (x ++ '"' :: (t ++ ['"'])))) →
      (∀ t v2 msg2 n2, WrongString E ('"' :: t) v2 msg2 n2 → WrongClause E q (x ++ '"' :: t) (x ++ v2) msg2 n2) →
      (msg = "unterminated string, check for missing closing [\"] or unescaped [\\]".toList ∧ StringEnd E (q ++ (x ++ v'))) ∨
      (msg ≠ "unterminated string, check for missing closing [\"] or unescaped [\\]".toList ∧
        msg ≠ "unterminated regular expression, did you forget a closing '/'?".toList ∧ Beginning E (q ++ (x ++ v'))) := by
    intro x s' v' msg n hw hf hr
    cases hw with
    | half =>
      have := dif (t := "string: invalid syntax".toList) (show ['i', 'n', 'v', 'a', 'l', 'i', 'd', ' '] ≠ _ by decide)
      exact .inr ⟨this.1, this.2, (hf [] [] .nil).cut ⟨['"', '"'], by simp⟩⟩
    | @unclosed t post ht hs =>
      refine .inl ⟨rfl, q ++ x, t, by simp, ht, ⟨?_, ?_⟩⟩
      · rintro ⟨r, n, hQ⟩
        rcases string_goes ht r with h | ⟨v2, msg2, n2, h⟩
        · exact h
        · exact (query_right (by simpa using hQ) hq (hr _ _ _ _ h)).elim
      · rintro ⟨u, y, hu⟩
        exact (hf _ _ hu).cut ⟨u ++ ['"'], by simp⟩
  cases h with
  | @name p s v _ _ hp h =>
    obtain ⟨hf, hr⟩ := reopen_name hq hp
    rcases string (x := p) h (fun t y ht => hf _ _ (.quoted ht)) (fun t v2 msg2 n2 => hr _ _ _ _) with h | h
    · exact .inl h
    · exact .inr (.inr h)
  | @values p xs w1 w2 o op w3 s v _ _ hp h1 h2 ho h3 hn _ _ hv =>
    rcases reopen_value hq hp h1 h2 ho h3 hn hv with ⟨x, s', v', rfl, rfl, hw, hf, hr⟩ | ⟨rfl, rfl⟩
    · have e : ∀ z, p ++ (w1 ++ ':' :: (w2 ++ (o ++ (w3 ++ (x ++ z))))) = (p ++ (w1 ++ ':' :: (w2 ++ (o ++ (w3 ++ x))))) ++ z := by
        intro z; simp
      have other : Beginning E (q ++ (p ++ (w1 ++ ':' :: (w2 ++ (o ++ (w3 ++ (x ++ []))))))) :=
        (hf ['1'] _ lit_one).cut ⟨['1'], by simp⟩
      cases hw with
      | string hs =>
        have := string (x := p ++ (w1 ++ ':' :: (w2 ++ (o ++ (w3 ++ x))))) hs (fun t y ht => ?_) (fun t v2 msg2 n2 h => ?_)
        · rw [e]
          rcases this with h | h
          · exact .inl h
          · exact .inr (.inr h)
        · have := hf _ _ (.string ht rfl)
          rwa [e] at this
        · obtain ⟨r, hs'⟩ := wrongString_head hs
          have := hr _ t r _ _ _ (.inl rfl) hs' (.string h)
          rwa [e, e] at this
      | @unclosedPattern t post ht hs =>
        refine .inr (.inl ⟨rfl, q ++ (p ++ (w1 ++ ':' :: (w2 ++ (o ++ (w3 ++ x))))), t, by simp, ht, ?_, ?_⟩)
        · rintro ⟨r, n, hQ⟩
          rcases pattern_goes (E := E) (q ++ (p ++ (w1 ++ ':' :: (w2 ++ (o ++ (w3 ++ x)))))) ht r with h | ⟨v2, msg2, n2, h⟩
          · exact h
          · exact (query_right (by simpa using hQ) hq (hr _ _ _ _ _ _ (.inr rfl) rfl h)).elim
        · rintro ⟨u, y, hu⟩
          exact (hf _ _ hu).cut ⟨u, by simp⟩
      | pattern => exact .inr (.inr ⟨(dif (t := "regular expression [".toList ++ _ ++ _ ++ _) (show ['i', 'n', 'v', 'a', 'l', 'i', 'd', ' '] ≠ _ by decide)).1, (dif (show ['i', 'n', 'v', 'a', 'l', 'i', 'd', ' '] ≠ _ by decide)).2, other⟩)
      | stamp => exact .inr (.inr ⟨(dif (show ['i', 'n', 'v', 'a', 'l', 'i', 'd', ' '] ≠ _ by decide)).1, (dif (show ['i', 'n', 'v', 'a', 'l', 'i', 'd', ' '] ≠ _ by decide)).2, other⟩)
      | day => exact .inr (.inr ⟨(dif (show ['i', 'n', 'v', 'a', 'l', 'i', 'd', ' '] ≠ _ by decide)).1, (dif (show ['i', 'n', 'v', 'a', 'l', 'i', 'd', ' '] ≠ _ by decide)).2, other⟩)
      | network => exact .inr (.inr ⟨(dif (show ['i', 'n', 'v', 'a', 'l', 'i', 'd', ' '] ≠ _ by decide)).1, (dif (show ['i', 'n', 'v', 'a', 'l', 'i', 'd', ' '] ≠ _ by decide)).2, other⟩)
      | float => exact .inr (.inr ⟨(dif (show ['i', 'n', 'v', 'a', 'l', 'i', 'd', ' '] ≠ _ by decide)).1, (dif (show ['i', 'n', 'v', 'a', 'l', 'i', 'd', ' '] ≠ _ by decide)).2, other⟩)
      | integer => exact .inr (.inr ⟨(dif (show ['i', 'n', 'v', 'a', 'l', 'i', 'd', ' '] ≠ _ by decide)).1, (dif (show ['i', 'n', 'v', 'a', 'l', 'i', 'd', ' '] ≠ _ by decide)).2, other⟩)
      | closing => exact .inr (.inr ⟨by decide, by decide, other⟩)
      | unknown => exact .inr (.inr ⟨(dif (show ['u', 'n', 'k', 'n', 'o', 'w', 'n', ' '] ≠ _ by decide)).1, (dif (show ['u', 'n', 'k', 'n', 'o', 'w', 'n', ' '] ≠ _ by decide)).2, other⟩)
    · refine .inr (.inr ⟨by decide, by decide, ?_⟩)
      exact (values_fill hq hp h1 h2 ho h3 (.one lit_one)).cut ⟨['1'], by simp⟩

end Aql
