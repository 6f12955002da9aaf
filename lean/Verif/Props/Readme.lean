import Verif.Props.Names
import Verif.Props.Numbers
/-!
Properties C70 and C71: the abbreviations of README.md, as texts. A set is short for a disjunction of
comparisons; a range is (not quite) short for the conjunction of its bounds.
-/

namespace Aql

open Spec

variable {E : Env}

theorem ne_subdoc_bare (n : Node) : NoSubdoc (bare n) ↔ NoSubdoc n := by
  induction n with
  | and l r ihl ihr => simp [bare, NoSubdoc, ihl, ihr]
  | or l r ihl ihr => simp [bare, NoSubdoc, ihl, ihr]
  | not n ih => simpa [bare, NoSubdoc] using ih
  | subdoc f n ih => simp [bare, NoSubdoc]
  | expr op f vs p => simp [bare, NoSubdoc]

theorem litOk_unplaced (v : Val) : LitOk (unplaced v) ↔ LitOk v := by cases v <;> rfl

theorem litsOk_bare (n : Node) : LitsIn LitOk (bare n) ↔ LitsIn LitOk n := by
  induction n with
  | and l r ihl ihr => simp [bare, LitsIn, ihl, ihr]
  | or l r ihl ihr => simp [bare, LitsIn, ihl, ihr]
  | not n ih => simpa [bare, LitsIn] using ih
  | subdoc f n ih => simpa [bare, LitsIn] using ih
  | expr op f vs p => simp [bare, LitsIn, litOk_unplaced]

theorem tree_fromGrammar {c : Cst} {s : Str} (hc : LaidOut E c s) : FromGrammar c.tree := by
  obtain ⟨n, hn, hb⟩ := C02_tree_of_tokens E c s hc
  obtain ⟨h1, h2⟩ := C01_accepted_from_grammar E _ n hn
  rw [← hb]
  exact ⟨(ne_subdoc_bare n).2 h1, (litsOk_bare n).2 h2⟩

/-- The answer of the matcher of a text, from its tokens. -/
theorem answer_of_text {c : Cst} {s : Str} (hc : LaidOut E c s) {m : Matcher} {ms : List Msg}
    (h : newMatcher E (utf8 s) = some (.ok (.ok (m, ms)))) {d : Json} (hp : PathsIn (Plain d) c.tree) :
    ∃ r, (m.match E (.valid d)).2 = .result r ∧ (r = true ↔ Sat E d c.tree) := by
  obtain ⟨hb, hok, -⟩ := root_of_text hc h
  obtain ⟨h1, h2⟩ := tree_fromGrammar hc
  obtain ⟨b, hb', hs⟩ := build_spec E c.tree hok h1 h2
  rw [hb] at hb'
  simp only [Except.ok.injEq] at hb'
  obtain ⟨r, hr, hi⟩ := hs d hp []
  refine ⟨r, ?_, hi⟩
  simp only [Matcher.match]
  rw [hb']
  rcases hx : b.result E d [] with ⟨ts, _ | b'⟩ <;> rw [hx] at hr <;> cases hr
  rfl

/-- A text with well-typed tokens and readable patterns gets a matcher. -/
theorem matcher_of_text {c : Cst} {s : Str} (hc : LaidOut E c s) (hok : AllOk E c.tree)
    (hm : (msgRun E (comparisons c.tree)).2 = none) :
    ∃ m ms, newMatcher E (utf8 s) = some (.ok (.ok (m, ms))) := by
  obtain ⟨h1, h2⟩ := tree_fromGrammar hc
  obtain ⟨b, hb, -⟩ := build_spec E c.tree hok h1 h2
  obtain ⟨m, ms, h, -⟩ := text_of_root hc hb hok hm
  exact ⟨m, ms, h⟩

theorem exprMessages_none {op : Op} {f : List Str} {vs : List Val} :
    (exprMessages E op f vs).2 = none ↔ ∀ v ∈ vs, (valMessages E op f v).2 = none := by
  induction vs with
  | nil => simp [exprMessages]
  | cons v vs ih =>
    rw [exprMessages, List.forall_mem_cons, ← ih]
    rcases valMessages E op f v with ⟨ms, _ | e⟩ <;> simp

theorem msgRun_none {ns : List Node} :
    (msgRun E ns).2 = none ↔ ∀ n ∈ ns, (messageVisitorFn E n).2 = none := by
  induction ns with
  | nil => simp [msgRun]
  | cons n ns ih =>
    rw [msgRun, List.forall_mem_cons, ← ih]
    rcases messageVisitorFn E n with ⟨ms, _ | e⟩ <;> simp

/-! ### C70 -/

/-- The literals, separated by commas. -/
def commaText : List (Str × Val) → Str
  | [] => []
  | [l] => l.1
  | l :: ls => l.1 ++ ',' :: commaText ls

/-- `field:(v1,v2,...)` -/
def setText (p : Str) (ls : List (Str × Val)) : Str := p ++ ':' :: '(' :: (commaText ls ++ [')'])

/-- `field:v1 OR field:v2 OR ...` -/
def orText (p : Str) : List (Str × Val) → Str
  | [] => []
  | [l] => p ++ ':' :: l.1
  | l :: ls => (p ++ ':' :: l.1) ++ " OR ".toList ++ orText p ls

/-- The tokens of `orText`. -/
def orCst (p : Str) (xs : List Str) : List (Str × Val) → Cst
  | [] => .compare p xs [] .EQ []
  | [l] => .compare p xs [] .EQ [l]
  | l :: ls => .or (.compare p xs [] .EQ [l]) (orCst p xs ls)

theorem commaText_laid {ls : List (Str × Val)} (hne : ls ≠ []) (hl : ∀ l ∈ ls, Lit E [] l.1 l.2) :
    LaidItems E ls (commaText ls) := by
  induction ls with
  | nil => exact absurd rfl hne
  | cons l ls ih =>
    cases ls with
    | nil => exact .one (hl l (by simp))
    | cons l' ls =>
      have := LaidItems.cons (w1 := []) (w2 := []) (hl l (by simp)) (by decide) (by decide)
        (ih (by simp) fun x hx => hl x (by simp [hx]))
      simpa [commaText] using this

theorem setText_laid {p : Str} {xs : List Str} {ls : List (Str × Val)} (hp : Path E p xs)
    (hl : ∀ l ∈ ls, Lit E [] l.1 l.2) (h2 : 2 ≤ ls.length) :
    LaidOut E (.compare p xs [] .EQ ls) (setText p ls) := by
  have hi := commaText_laid (E := E) (ls := ls) (by rintro rfl; simp at h2) hl
  have hw : Ws [] := by decide
  refine ⟨[], _, [], hw, hw, .andOr (.notAnd (.cmpNot (.compare (w1 := []) (w2 := []) (w3 := []) hp .eq
    (.list (w1 := []) (w2 := []) h2 hw hi hw) hw hw hw))), ?_⟩
  simp [setText]

theorem orText_laid {p : Str} {xs : List Str} {ls : List (Str × Val)} (hp : Path E p xs)
    (hl : ∀ l ∈ ls, Lit E [] l.1 l.2) (hne : ls ≠ []) : Laid E .or (orCst p xs ls) (orText p ls) := by
  have hw : Ws [] := by decide
  have hs : Space [' '] := by decide
  have one : ∀ l ∈ ls, Laid E .and (.compare p xs [] .EQ [l]) (p ++ ':' :: l.1) := by
    intro l h
    have := Laid.compare (w1 := []) (w2 := []) (w3 := []) hp .eq (.one (hl l h)) hw hw hw
    exact .notAnd (.cmpNot (by simpa using this))
  induction ls with
  | nil => exact absurd rfl hne
  | cons l ls ih =>
    cases ls with
    | nil => exact .andOr (one l (by simp))
    | cons l' ls =>
      have := Laid.or (one l (by simp)) (ih (fun x hx => hl x (by simp [hx])) (by simp)
        fun x hx => one x (by simp [hx])) hs hs
      simpa [orCst, orText] using this

theorem exprOk_single (v : Val) : ExprOk E .EQ [v] := by
  refine ⟨by simp [ArityOk], by simp [OperandOk], by simp, ?_, by simp⟩
  intro _ ⟨h1, h2⟩
  simp only [List.map_cons, List.map_nil, List.mem_singleton] at h1 h2
  rw [← h1] at h2
  exact absurd h2 (by decide)

theorem orCst_allOk (p : Str) (xs : List Str) {ls : List (Str × Val)} (hne : ls ≠ []) :
    AllOk E (orCst p xs ls).tree := by
  induction ls with
  | nil => exact absurd rfl hne
  | cons l ls ih =>
    cases ls with
    | nil => exact exprOk_single _
    | cons l' ls => exact ⟨exprOk_single _, ih (by simp)⟩

theorem orCst_paths {p : Str} {xs : List Str} {ls : List (Str × Val)} {P : List Str → Prop} (h : P (withoutStars xs)) :
    PathsIn P (orCst p xs ls).tree := by
  induction ls with
  | nil => exact h
  | cons l ls ih =>
    cases ls with
    | nil => exact h
    | cons l' ls => exact ⟨h, ih⟩

theorem orCst_messages {p : Str} {xs : List Str} {ls : List (Str × Val)}
    (h : ∀ l ∈ ls, (valMessages E .EQ (withoutStars xs) (unplaced l.2)).2 = none) :
    ∀ n ∈ comparisons (orCst p xs ls).tree, (messageVisitorFn E n).2 = none := by
  induction ls with
  | nil => simp [orCst, Cst.tree, comparisons, messageVisitorFn, exprMessages]
  | cons l ls ih =>
    have one : (messageVisitorFn E (.expr .EQ (withoutStars xs) [unplaced l.2] noPosition)).2 = none := by
      rw [messageVisitorFn, exprMessages_none]
      intro v hv
      rw [List.mem_singleton.1 hv]
      exact h l (by simp)
    cases ls with
    | nil => simpa [orCst, Cst.tree, comparisons] using one
    | cons l' ls =>
      intro n hn
      simp only [orCst, Cst.tree, comparisons, List.map_cons, List.map_nil, List.singleton_append,
        List.mem_cons] at hn
      rcases hn with rfl | hn
      · exact one
      · exact ih (fun x hx => h x (by simp [hx])) n hn

theorem orCst_sat {p : Str} {xs : List Str} {ls : List (Str × Val)} (d : Json) :
    Sat E d (orCst p xs ls).tree ↔ Sat E d (Cst.compare p xs [] .EQ ls).tree := by
  induction ls with
  | nil => rfl
  | cons l ls ih =>
    cases ls with
    | nil => rfl
    | cons l' ls =>
      change Sat E d (Cst.compare p xs [] .EQ [l]).tree ∨ Sat E d (orCst p xs (l' :: ls)).tree ↔ _
      rw [ih]
      simp only [Cst.tree, Sat, List.map_cons, List.map_nil, List.mem_cons, exists_eq_or_imp,
        List.not_mem_nil, or_false]
      simp

variable (E) in
/-- **C70.** A set is short for the disjunction: if `field:(v1,...,vn)` gets a matcher, so does
`field:v1 OR ... OR field:vn`, and the two give the same answer on every document. -/
theorem C70_set_is_or (p : Str) (xs : List Str) (ls : List (Str × Val)) (hp : Path E p xs)
    (hl : ∀ l ∈ ls, Lit E [] l.1 l.2) (h2 : 2 ≤ ls.length) (m : Matcher) (ms : List Msg)
    (h : newMatcher E (utf8 (setText p ls)) = some (.ok (.ok (m, ms)))) :
    ∃ m' ms', newMatcher E (utf8 (orText p ls)) = some (.ok (.ok (m', ms'))) ∧
      ∀ d, Plain d (withoutStars xs) → (m.match E (.valid d)).2 = (m'.match E (.valid d)).2 := by
  have hne : ls ≠ [] := by rintro rfl; simp at h2
  have hw : Ws [] := by decide
  have hs := setText_laid hp hl h2
  have ho : LaidOut E (orCst p xs ls) (orText p ls) :=
    ⟨[], _, [], hw, hw, orText_laid hp hl hne, by simp⟩
  obtain ⟨-, -, hm⟩ := root_of_text hs h
  obtain ⟨m', ms', h'⟩ := matcher_of_text ho (orCst_allOk p xs hne) (msgRun_none.2 (orCst_messages (by
    rw [msgRun_none] at hm
    have := hm (.expr .EQ (withoutStars xs) (ls.map fun l => unplaced l.2) noPosition)
      (by simp only [Cst.tree, comparisons, List.mem_singleton])
    rw [messageVisitorFn, exprMessages_none] at this
    intro l hl
    exact this _ (List.mem_map.2 ⟨l, hl, rfl⟩))))
  refine ⟨m', ms', h', fun d hd => ?_⟩
  obtain ⟨r, hr, hi⟩ := answer_of_text hs h (d := d) hd
  obtain ⟨r', hr', hi'⟩ := answer_of_text ho h' (d := d) (orCst_paths hd)
  rw [hr, hr']
  rw [orCst_sat, ← hi] at hi'
  cases r <;> cases r' <;> simp at hi' ⊢

-- a set and its disjunction
example : setText "a".toList [("1".toList, .int 1 "1".toList noPosition), ("true".toList, .bool true noPosition)] =
    "a:(1,true)".toList ∧
    orText "a".toList [("1".toList, .int 1 "1".toList noPosition), ("true".toList, .bool true noPosition)] =
    "a:1 OR a:true".toList ∧
    answerOf testEnv "y:(1,7)".toList exampleDoc = some true ∧
    answerOf testEnv "y:1 OR y:7".toList exampleDoc = some true := by
  decide +kernel

-- the converse is not claimed: the disjunction of a comparison with itself is accepted, the set is not
example : answerOf testEnv "y:7 OR y:7".toList exampleDoc = some true ∧
    answerOf testEnv "y:(7,7)".toList exampleDoc = none := by
  decide +kernel

/-! ### C71 -/

/-- `field:><(a,b)` -/
def betText (p : Str) (a b : Str × Val) : Str := p ++ ":><(".toList ++ a.1 ++ ",".toList ++ b.1 ++ ")".toList

/-- `field:>=a AND field:<=b` -/
def boundsText (p : Str) (a b : Str × Val) : Str :=
  p ++ ":>=".toList ++ a.1 ++ " AND ".toList ++ p ++ ":<=".toList ++ b.1

/-- Two numbers or two datetimes. -/
def SameKind (a b : Val) : Prop := (Numeric a ∧ Numeric b) ∨ (typeOf a = .time ∧ typeOf b = .time)

theorem betText_laid {p : Str} {xs : List Str} {a b : Str × Val} (hp : Path E p xs)
    (ha : Lit E [] a.1 a.2) (hb : Lit E [] b.1 b.2) :
    LaidOut E (.compare p xs ['>', '<'] .BET [a, b]) (betText p a b) := by
  have hw : Ws [] := by decide
  refine ⟨[], _, [], hw, hw, .andOr (.notAnd (.cmpNot (.compare (w1 := []) (w2 := []) (w3 := []) hp .bet
    (.list (w1 := []) (w2 := []) (by simp) hw (.cons (w1 := []) (w2 := []) ha hw hw (.one hb)) hw) hw hw hw))), ?_⟩
  simp [betText]

theorem boundsText_laid {p : Str} {xs : List Str} {a b : Str × Val} (hp : Path E p xs)
    (ha : Lit E [] a.1 a.2) (hb : Lit E [] b.1 b.2) :
    LaidOut E (.and (.compare p xs ['>', '='] .GTE [a]) (.compare p xs ['<', '='] .LTE [b])) (boundsText p a b) := by
  have hw : Ws [] := by decide
  have hs : Space [' '] := by decide
  refine ⟨[], _, [], hw, hw, .andOr (.and
    (.cmpNot (.compare (w1 := []) (w2 := []) (w3 := []) hp .gte (.one ha) hw hw hw))
    (.notAnd (.cmpNot (.compare (w1 := []) (w2 := []) (w3 := []) hp .lte (.one hb) hw hw hw))) hs hs), ?_⟩
  simp [boundsText]

theorem unplaced_type (v : Val) : typeOf (unplaced v) = typeOf v := by cases v <;> rfl

theorem type_unplaced_num {v : Val} (h : Numeric v) : Numeric (unplaced v) := by
  unfold Numeric at *
  rwa [unplaced_type]

theorem textOf_unique {s : Json} {t t' : Str} (h : TextOf E s t) (h' : TextOf E s t') : t = t' := by
  cases h with
  | str h => cases h' with | str h' => rw [h] at h'; exact Option.some.inj h'
  | num h hz ht => cases h' with
    | num h' hz' ht' =>
      obtain rfl := readAs_unique h h'
      rw [Bool.eq_iff_iff.2 (hz.trans hz'.symm)] at ht
      exact numberText_unique ht ht'

theorem int64Of_unique {x w w' : Int} (h : Int64Of x w) (h' : Int64Of x w') : w = w' := by
  obtain ⟨a, b, k, hk⟩ := h
  obtain ⟨a', b', k', hk'⟩ := h'
  omega

theorem nanosOf_unique {s : Json} {w w' : Int} (h : NanosOf E s w) (h' : NanosOf E s w') : w = w' := by
  obtain ⟨t, i, h1, h2, h3⟩ := h
  obtain ⟨t', i', h1', h2', h3'⟩ := h'
  obtain rfl := textOf_unique h1 h1'
  rw [h2] at h2'
  cases h2'
  exact int64Of_unique h3 h3'

theorem numberOf_unique {s : Json} {f g : F64} (h : NumberOf E s f) (h' : NumberOf E s g) : f = g := by
  cases h with
  | num h => cases h' with | num h' => exact readAs_unique h h'
  | str h => cases h' with | str h' => exact readAs_unique h h'

/-- A range on one value is the conjunction of its bounds. -/
theorem bet_iff_bounds {a b : Val} (hk : SameKind a b) (s : Json) :
    BetHolds E a b s ↔ CmpHolds E .GTE a s ∧ CmpHolds E .LTE b s := by
  constructor
  · rintro (⟨f, lo, hi, h1, h2, h3, h4, h5⟩ | ⟨sa, ta, da, pa, sb, tb, db, pb, w, lo, hi, rfl, rfl, h1, h2, h3, h4, h5⟩)
    · refine ⟨.inl ⟨f, lo, h1, h2, h4⟩, ?_⟩
      rcases h3 with h3 | ⟨h3, -⟩
      · exact .inl ⟨f, hi, h1, h3, h5⟩
      · rcases hk with ⟨-, hb⟩ | ⟨ha, -⟩
        · obtain ⟨c, hc⟩ := hb.lit; exact absurd hc (h3 c)
        · cases h2 <;> cases ha
    · exact ⟨.inr ⟨_, _, _, _, w, lo, rfl, h1, h2, h4⟩, .inr ⟨_, _, _, _, w, hi, rfl, h1, h3, h5⟩⟩
  · rintro ⟨⟨f, c, h1, h2, h3⟩ | ⟨_, _, _, _, w, c, rfl, h1, h2, h3⟩,
      ⟨f', c', h1', h2', h3'⟩ | ⟨_, _, _, _, w', c', rfl, h1', h2', h3'⟩⟩
    · obtain rfl := numberOf_unique h1 h1'
      exact .inl ⟨f, c, c', h1, h2, .inl h2', h3, h3'⟩
    · rcases hk with ⟨-, hb | hb⟩ | ⟨ha, -⟩
      · cases hb
      · cases hb
      · cases h2 <;> cases ha
    · rcases hk with ⟨ha | ha, -⟩ | ⟨-, hb⟩
      · cases ha
      · cases ha
      · cases h2' <;> cases hb
    · obtain rfl := nanosOf_unique h1 h1'
      exact .inr ⟨_, _, _, _, _, _, _, _, w, c, c', rfl, rfl, h1, h2, h2', h3, h3'⟩

theorem valMessages_sameKind {v : Val} (h : Numeric v ∨ typeOf v = .time) (op : Op) (f : List Str) :
    (valMessages E op f v).2 = none := by
  cases v <;> first | rfl | (exfalso; revert h; simp [Numeric, Val.type])

theorem numLit_unplaced {v : Val} {c : F64} : NumLit (unplaced v) c ↔ NumLit v c := by
  cases v <;> exact ⟨fun h => by cases h <;> constructor <;> assumption, fun h => by cases h <;> constructor <;> assumption⟩

theorem cmpHolds_unplaced {op : Op} {v : Val} {s : Json} : CmpHolds E op (unplaced v) s ↔ CmpHolds E op v s := by
  unfold CmpHolds
  simp only [numLit_unplaced]
  refine or_congr_right ⟨?_, ?_⟩
  · rintro ⟨sv, t, d, pos, w, c, he, h⟩
    cases v <;> cases he
    exact ⟨_, _, _, _, w, c, rfl, h⟩
  · rintro ⟨sv, t, d, pos, w, c, rfl, h⟩
    exact ⟨_, _, _, _, w, c, rfl, h⟩

/-- Both matchers, and what they answer. -/
theorem bounds_answers {p : Str} {xs : List Str} {a b : Str × Val} (hp : Path E p xs)
    (ha : Lit E [] a.1 a.2) (hb : Lit E [] b.1 b.2) (hk : SameKind a.2 b.2) {m : Matcher} {ms : List Msg}
    (h : newMatcher E (utf8 (betText p a b)) = some (.ok (.ok (m, ms)))) :
    ∃ m' ms', newMatcher E (utf8 (boundsText p a b)) = some (.ok (.ok (m', ms'))) ∧
      ∀ d, Plain d (withoutStars xs) → ∃ r r', (m.match E (.valid d)).2 = .result r ∧
        (m'.match E (.valid d)).2 = .result r' ∧
        (r = true ↔ ∃ s, ScalarUnder E d (withoutStars xs) s ∧ CmpHolds E .GTE a.2 s ∧ CmpHolds E .LTE b.2 s) ∧
        (r' = true ↔ (∃ s, ScalarUnder E d (withoutStars xs) s ∧ CmpHolds E .GTE a.2 s) ∧
          ∃ s, ScalarUnder E d (withoutStars xs) s ∧ CmpHolds E .LTE b.2 s) := by
  have hs := betText_laid hp ha hb
  have ho := boundsText_laid hp ha hb
  have hk' : SameKind (unplaced a.2) (unplaced b.2) := by
    rcases hk with ⟨h1, h2⟩ | ⟨h1, h2⟩
    · exact .inl ⟨type_unplaced_num h1, type_unplaced_num h2⟩
    · exact .inr ⟨by rw [unplaced_type, h1], by rw [unplaced_type, h2]⟩
  have hka : Numeric (unplaced a.2) ∨ typeOf (unplaced a.2) = .time := by
    rcases hk' with ⟨h, -⟩ | ⟨h, -⟩ <;> tauto
  have hkb : Numeric (unplaced b.2) ∨ typeOf (unplaced b.2) = .time := by
    rcases hk' with ⟨-, h⟩ | ⟨-, h⟩ <;> tauto
  have ok1 : ∀ op v, (op = Op.GTE ∨ op = Op.LTE) → (Numeric v ∨ typeOf v = .time) → ExprOk E op [v] := by
    rintro op v hop hv
    have hv' : typeOf v = .int ∨ typeOf v = .float ∨ typeOf v = .time := by unfold Numeric at hv; tauto
    rcases hop with rfl | rfl <;>
      exact ⟨by simp [ArityOk], by simpa [OperandOk] using hv', by simp, by simp, by simp⟩
  obtain ⟨m', ms', h'⟩ := matcher_of_text ho ⟨ok1 _ _ (.inl rfl) hka, ok1 _ _ (.inr rfl) hkb⟩ (by
    rw [msgRun_none]
    intro n hn
    simp only [Cst.tree, comparisons, List.map_cons, List.map_nil, List.singleton_append, List.mem_cons,
      List.not_mem_nil, or_false] at hn
    rcases hn with rfl | rfl <;> (rw [messageVisitorFn, exprMessages_none]; intro v hv; rw [List.mem_singleton.1 hv])
    · exact valMessages_sameKind hka _ _
    · exact valMessages_sameKind hkb _ _)
  refine ⟨m', ms', h', fun d hd => ?_⟩
  obtain ⟨r, hr, hi⟩ := answer_of_text hs h (d := d) hd
  obtain ⟨r', hr', hi'⟩ := answer_of_text ho h' (d := d) ⟨hd, hd⟩
  have e1 : r = true ↔ ∃ s, ScalarUnder E d (withoutStars xs) s ∧ CmpHolds E .GTE (unplaced a.2) s ∧
      CmpHolds E .LTE (unplaced b.2) s := by
    rw [hi]
    simp only [Cst.tree, Sat, List.map_cons, List.map_nil]
    constructor
    · rintro ⟨x, y, he, s, h1, h2⟩
      cases he
      exact ⟨s, h1, (bet_iff_bounds hk' s).1 h2⟩
    · rintro ⟨s, h1, h2⟩
      exact ⟨_, _, rfl, s, h1, (bet_iff_bounds hk' s).2 h2⟩
  have e2 : r' = true ↔ (∃ s, ScalarUnder E d (withoutStars xs) s ∧ CmpHolds E .GTE (unplaced a.2) s) ∧
      ∃ s, ScalarUnder E d (withoutStars xs) s ∧ CmpHolds E .LTE (unplaced b.2) s := by
    rw [hi']
    simp [Cst.tree, Sat]
  simp only [cmpHolds_unplaced] at e1 e2
  exact ⟨r, r', hr, hr', e1, e2⟩

variable (E) in
/-- **C71, partial.** If `field:><(a,b)` gets a matcher (with two numbers or two datetimes), so does
`field:>=a AND field:<=b`, with the same answer on every document where the field has at most one
scalar. A document matched by the first is always matched by the second. Missing from the full
statement: fields with several scalars, for which the two differ (`C71_bounds_refuted`). -/
theorem C71_bounds_partial (p : Str) (xs : List Str) (a b : Str × Val) (hp : Path E p xs)
    (ha : Lit E [] a.1 a.2) (hb : Lit E [] b.1 b.2) (hk : SameKind a.2 b.2) (m : Matcher) (ms : List Msg)
    (h : newMatcher E (utf8 (betText p a b)) = some (.ok (.ok (m, ms)))) :
    ∃ m' ms', newMatcher E (utf8 (boundsText p a b)) = some (.ok (.ok (m', ms'))) ∧
      ∀ d, Plain d (withoutStars xs) →
        (Accepts E m d → Accepts E m' d) ∧
        ((∀ s t, ScalarUnder E d (withoutStars xs) s → ScalarUnder E d (withoutStars xs) t → s = t) →
          (m.match E (.valid d)).2 = (m'.match E (.valid d)).2) := by
  obtain ⟨m', ms', h', hall⟩ := bounds_answers hp ha hb hk h
  refine ⟨m', ms', h', fun d hd => ?_⟩
  obtain ⟨r, r', hr, hr', e1, e2⟩ := hall d hd
  have imp : r = true → r' = true := by
    rw [e1, e2]
    rintro ⟨s, h1, h2, h3⟩
    exact ⟨⟨s, h1, h2⟩, s, h1, h3⟩
  constructor
  · unfold Accepts
    rw [hr, hr']
    intro hx
    cases hx
    rw [imp rfl]
  · intro hu
    have conv : r' = true → r = true := by
      rw [e1, e2]
      rintro ⟨⟨s, h1, h2⟩, t, h3, h4⟩
      obtain rfl := hu s t h1 h3
      exact ⟨s, h1, h2, h4⟩
    rw [hr, hr']
    cases r <;> cases r' <;> simp at imp conv ⊢

variable (E) in
/-- **C71, exactly.** The two answers differ just when some scalar of the field reaches the lower bound,
some scalar stays below the upper bound, and none does both. -/
theorem C71_bounds_exact (p : Str) (xs : List Str) (a b : Str × Val) (hp : Path E p xs)
    (ha : Lit E [] a.1 a.2) (hb : Lit E [] b.1 b.2) (hk : SameKind a.2 b.2) (m : Matcher) (ms : List Msg)
    (h : newMatcher E (utf8 (betText p a b)) = some (.ok (.ok (m, ms)))) :
    ∃ m' ms', newMatcher E (utf8 (boundsText p a b)) = some (.ok (.ok (m', ms'))) ∧
      ∀ d, Plain d (withoutStars xs) →
        ((m.match E (.valid d)).2 ≠ (m'.match E (.valid d)).2 ↔
          (∃ s, ScalarUnder E d (withoutStars xs) s ∧ CmpHolds E .GTE a.2 s) ∧
          (∃ s, ScalarUnder E d (withoutStars xs) s ∧ CmpHolds E .LTE b.2 s) ∧
          ¬ ∃ s, ScalarUnder E d (withoutStars xs) s ∧ CmpHolds E .GTE a.2 s ∧ CmpHolds E .LTE b.2 s) := by
  obtain ⟨m', ms', h', hall⟩ := bounds_answers hp ha hb hk h
  refine ⟨m', ms', h', fun d hd => ?_⟩
  obtain ⟨r, r', hr, hr', e1, e2⟩ := hall d hd
  rw [hr, hr', ← e1, ← and_assoc, ← e2]
  have imp : r = true → r' = true := by
    rw [e1, e2]
    rintro ⟨s, h1, h2, h3⟩
    exact ⟨⟨s, h1, h2⟩, s, h1, h3⟩
  cases r <;> cases r' <;> simp at imp ⊢

/-- A document with two values in one field. -/
def twoValues : Json := .obj [("a".toList, .arr [.num "1".toList, .num "9".toList])]

/-- **C71, refuted.** With several values the bounds may be met by different ones. And the ends of a
range belong to it, unlike README.md says ("greater than 1 and less than 2"). -/
theorem C71_bounds_refuted :
    answerOf testEnv "a:><(3,7)".toList twoValues = some false ∧
    answerOf testEnv "a:>=3 AND a:<=7".toList twoValues = some true ∧
    answerOf testEnv "a:><(1,2)".toList twoValues = some true ∧
    answerOf testEnv "a:>1 AND a:<2".toList (.obj [("a".toList, .num "1".toList)]) = some false := by
  decide +kernel

end Aql
