import Verif.Proofs.Expected
/-!
Two runs of the parser, over texts with a common beginning `p`, compared: up to the first test that can
tell the texts apart they agree, and that test is noted at the end of `p`.
-/

namespace Aql

open Spec

variable {E : Env}

/-! ### Plain expressions -/

/-- The rules outside of strings and regular expressions, except `Start` and `EOF`. -/
def plainR : Rule → Bool
  | .Start | .EOF | .EOL | .ErrUntermStr | .ErrUntermRegex | .EndingQuote | .EscapedChar | .EscapeSequence
  | .SingleCharEscape | .UnicodeEscape | .HexDigit | .RegexChar | .RegexEscape | .EndingSlash => false
  | _ => true

/-- Strings and regular expressions. -/
def isTok : Rule → Bool
  | .QuotedValue | .RegexValue => true
  | _ => false

mutual
/-- No look-ahead, recovery or state; every choice has an alternative; a literal that ignores case is one
character. -/
def plainE : PExpr → Bool
  | .action _ e => plainE e
  | .seq es => plainL es
  | .choice es => !es.isEmpty && plainL es
  | .label _ e => plainE e
  | .rule r => plainR r
  | .lit v ic _ => !ic || v.length == 1
  | .cls .. => true
  | .any => false
  | .not _ => false
  | .star e => plainE e
  | .plus e => plainE e
  | .opt e => plainE e
  | .recover .. => false
  | .throw _ => false
  | .state _ => false
def plainL : List PExpr → Bool
  | [] => true
  | e :: es => plainE e && plainL es
end

theorem plain_grammar (r : Rule) (h : plainR r = true) (ht : isTok r = false) : plainE (grammar r) = true := by
  cases r <;> first | rfl | (exfalso; revert h; decide) | (exfalso; revert ht; decide)

def Job.plain : Job → Bool
  | .expr e _ => plainE e
  | .seq _ es _ _ => plainL es
  | .choice _ es => plainL es
  | .rep _ e _ _ => plainE e
  | .throw .. => false

/-! ### A failure is noted -/

theorem cur_off (pre s : Str) : (cur pre s).loc.off = bytesOf pre := locAt_off pre s

theorem bytesOf_append' (a b : Str) : bytesOf (a ++ b) = bytesOf a + bytesOf b := by
  unfold bytesOf
  rw [List.map_append, List.sum_append]

/-- A string or regular expression: where it stands, what the run is. -/
structure TokRule (E : Env) (ctx : Ctx) (x : Rule) (q : Char) (w : Str) : Prop where
  fails : ∀ {pre s : Str} {fr : VFrame} {l : List Ev} {d : Cursor}, Big E ctx (.expr (.rule x) fr) (cur pre s) l (.fail d) → errorsOf l = [] →
    NoHead (· = q) s ∧ Ev.mark false ctx.inv (cur pre s).loc w ∈ l
  head : ∀ {pre s v a b}, RuleOk E ctx x pre s v a b → ∃ t, a = q :: (t ++ [q])
  moves : ∀ {pre s v a b c}, RuleOk E ctx x pre s v a b → RuleOk E ctx x pre (a ++ c) v a c
  reads : readWant w = some (.lit [q] false)

theorem big_recover_inner {ctx : Ctx} {x : FailLabel} {e h : PExpr} {fr : VFrame} {c : Cursor} {l : List Ev} {r : Res}
    (hb : Big E ctx (.expr (.recover x e h) fr) c l r) :
    ∃ l1 r1, Big E { ctx with recov := (x, h) :: ctx.recov } (.expr e fr) c l1 r1 ∧ ∀ ev ∈ l1, ev ∈ l := by
  cases hb with
  | recover h => exact ⟨_, _, h, fun ev he => List.mem_cons_of_mem _ he⟩

theorem lit1_marks {ctx : Ctx} {q : Char} {w : Str} {fr : VFrame} {pre s : Str} {l : List Ev} {r : Res}
    (h : Big E ctx (.expr (.lit [q] false w) fr) (cur pre s) l r) (hs : NoHead (· = q) s) :
    Ev.mark false ctx.inv (cur pre s).loc w ∈ l := by
  have hl := (litLoop_cur (E := E) false [q] pre s).2 (by
    rintro a b rfl ha
    simp only [Bool.false_eq_true, if_false, List.map_id'] at ha
    subst ha
    exact hs q b rfl rfl)
  cases h with
  | lit_ok h => rw [hl] at h; cases h
  | lit_fail h => simp

theorem tok_quoted (ctx : Ctx) : TokRule E ctx .QuotedValue '"' "\"\\\"\"".toList where
  fails := by
    intro pre s fr l d h hl
    have hs := quoted_head ⟨l, d, h, hl⟩
    refine ⟨hs, ?_⟩
    obtain ⟨l1, r1, h, s1⟩ := big_rule_inner h
    obtain ⟨l2, r2, h, s2⟩ := big_recover_inner h
    obtain ⟨l3, r3, h, s3⟩ := big_action_inner h
    obtain ⟨l4, r4, h, s4⟩ := big_seq_inner h
    have hm := lit1_marks h hs
    exact s1 _ (s2 _ (s3 _ (s4 _ hm)))
  head := by
    intro pre s v a b h
    obtain ⟨-, t, x, -, rfl, -⟩ := rule_quoted.1 h
    exact ⟨t, rfl⟩
  moves := by
    intro pre s v a b c h
    obtain ⟨-, h⟩ := rule_quoted.1 h
    exact rule_quoted.2 ⟨rfl, h⟩
  reads := by decide +kernel

theorem tok_regex (ctx : Ctx) : TokRule E ctx .RegexValue '/' "\"/\"".toList where
  fails := by
    intro pre s fr l d h hl
    have hs := regex_head ⟨l, d, h, hl⟩
    refine ⟨hs, ?_⟩
    obtain ⟨l1, r1, h, s1⟩ := big_rule_inner h
    obtain ⟨l2, r2, h, s2⟩ := big_recover_inner h
    obtain ⟨l3, r3, h, s3⟩ := big_action_inner h
    obtain ⟨l4, r4, h, s4⟩ := big_seq_inner h
    have hm := lit1_marks h hs
    exact s1 _ (s2 _ (s3 _ (s4 _ hm)))
  head := by
    intro pre s v a b h
    obtain ⟨-, t, x, y, -, rfl, -⟩ := rule_regex.1 h
    exact ⟨t, rfl⟩
  moves := by
    intro pre s v a b c h
    obtain ⟨-, h⟩ := rule_regex.1 h
    exact rule_regex.2 ⟨rfl, h⟩
  reads := by decide +kernel

theorem tok_rule {x : Rule} (h : isTok x = true) (ctx : Ctx) : ∃ q w, TokRule E ctx x q w := by
  cases x <;> first | exact ⟨_, _, tok_quoted ctx⟩ | exact ⟨_, _, tok_regex ctx⟩ | (exfalso; revert h; decide)

/-- Some failed test is at this offset or beyond. -/
def FailsFrom (n : Nat) (l : List Ev) : Prop := ∃ b q w, Ev.mark b b q w ∈ l ∧ n ≤ q.off

theorem FailsFrom.mono {n m : Nat} {l l' : List Ev} (h : FailsFrom n l) (hm : m ≤ n) (hl : ∀ ev ∈ l, ev ∈ l') :
    FailsFrom m l' := by
  obtain ⟨b, q, w, h1, h2⟩ := h
  exact ⟨b, q, w, hl _ h1, Nat.le_trans hm h2⟩

/-- What fails has a failed test where it began or further. -/
theorem Big.failed {ctx : Ctx} {j : Job} {c : Cursor} {l : List Ev} {r : Res} (h : Big E ctx j c l r) :
    ∀ {pre s d}, c = cur pre s → r = .fail d → ctx.inv = false → j.plain = true → (∀ fr, j ≠ .choice fr []) →
      errorsOf l = [] → FailsFrom (bytesOf pre) l := by
  induction h with
  | action_ok h ha ih => intro _ _ _ _ e; cases e
  | action_err h ha ih => intro _ _ _ _ e; cases e
  | action_panic h ha ih => intro _ _ _ _ e; cases e
  | action_stop h hs ih =>
    intro pre s d e hr hi hj _ hl
    exact (ih e hr hi hj (by intro _ h; cases h) hl).mono (Nat.le_refl _) (fun ev he => List.mem_cons_of_mem _ he)
  | seq h ih =>
    intro pre s d e hr hi hj _ hl
    exact (ih e hr hi hj (by intro _ h; cases h) hl).mono (Nat.le_refl _) (fun ev he => List.mem_cons_of_mem _ he)
  | seq_nil => intro _ _ _ _ e; cases e
  | seq_cons h1 h2 ih1 ih2 =>
    intro pre s d e hr hi hj _ hl
    rw [Job.plain, plainL, Bool.and_eq_true] at hj
    obtain ⟨t, ht⟩ := h1.ok_adv
    subst e
    obtain ⟨a, b, rfl, rfl⟩ := adv_cur ht
    refine (ih2 rfl hr hi hj.2 (by intro _ h; cases h) (errorsOf_append_nil.1 hl).2).mono ?_
      (fun ev he => List.mem_append_right _ he)
    rw [bytesOf_append']
    omega
  | seq_fail h ih =>
    intro pre s d e hr hi hj _ hl
    rw [Job.plain, plainL, Bool.and_eq_true] at hj
    exact ih e rfl hi hj.1 (by intro _ h; cases h) hl
  | seq_panic h ih => intro _ _ _ _ e; cases e
  | @choice _ es _ _ _ _ h ih =>
    intro pre s d e hr hi hj _ hl
    rw [Job.plain, plainE, Bool.and_eq_true] at hj
    refine (ih e hr hi hj.2 ?_ hl).mono (Nat.le_refl _) (fun ev he => List.mem_cons_of_mem _ he)
    intro fr h
    cases h
    simp at hj
  | choice_nil => intro _ _ _ _ _ _ _ h; exact absurd rfl (h _)
  | choice_ok h ih => intro _ _ _ _ e; cases e
  | choice_next h1 h2 ih1 ih2 =>
    intro pre s d e hr hi hj _ hl
    rw [Job.plain, plainL, Bool.and_eq_true] at hj
    exact (ih1 e rfl hi hj.1 (by intro _ h; cases h) (errorsOf_append_nil.1 hl).1).mono (Nat.le_refl _)
      (fun ev he => List.mem_append_left _ he)
  | choice_panic h ih => intro _ _ _ _ e; cases e
  | label_ok h ih => intro _ _ _ _ e; cases e
  | label_stop h hs ih =>
    intro pre s d e hr hi hj _ hl
    exact (ih e hr hi hj (by intro _ h; cases h) hl).mono (Nat.le_refl _) (fun ev he => List.mem_cons_of_mem _ he)
  | rule_ok h ih => intro _ _ _ _ e; cases e
  | @rule_stop ctx x fr c l r h hs ih =>
    intro pre s d e hr hi hj _ hl
    cases ht : isTok x
    · exact (ih e hr hi (plain_grammar _ hj ht) (by intro _ h; cases h) hl).mono (Nat.le_refl _)
        (fun ev he => List.mem_cons_of_mem _ he)
    · obtain ⟨q, w, T⟩ := tok_rule (E := E) ht ctx
      subst e hr
      obtain ⟨-, hm⟩ := T.fails (.rule_stop (fr := fr) h hs) hl
      rw [hi] at hm
      exact ⟨_, _, _, hm, by rw [cur_off]⟩
  | lit_ok h => intro _ _ _ _ e; cases e
  | lit_fail h =>
    intro pre s d e hr hi hj _ hl
    subst e
    rw [hi]
    exact ⟨false, _, _, List.mem_cons_of_mem _ (List.mem_append_right _ (List.mem_singleton.2 rfl)), by rw [cur_off]⟩
  | cls_ok hr hm => intro _ _ _ _ e; cases e
  | cls_fail h =>
    intro pre s d e hr hi hj _ hl
    subst e
    rw [hi]
    exact ⟨false, _, _, List.mem_cons_of_mem _ (List.mem_singleton.2 rfl), by rw [cur_off]⟩
  | any_ok hr => intro _ _ _ _ e; cases e
  | any_eof hr => intro _ _ _ _ _ _ hj; cases hj
  | not_ok h ih => intro _ _ _ _ e; cases e
  | not_fail h ih => intro _ _ _ _ _ _ hj; cases hj
  | not_panic h ih => intro _ _ _ _ e; cases e
  | star h ih =>
    intro pre s d e hr hi hj _ hl
    exact (ih e hr hi hj (by intro _ h; cases h) hl).mono (Nat.le_refl _) (fun ev he => List.mem_cons_of_mem _ he)
  | plus h ih =>
    intro pre s d e hr hi hj _ hl
    exact (ih e hr hi hj (by intro _ h; cases h) hl).mono (Nat.le_refl _) (fun ev he => List.mem_cons_of_mem _ he)
  | rep_next h1 h2 ih1 ih2 =>
    intro pre s d e hr hi hj _ hl
    obtain ⟨t, ht⟩ := h1.ok_adv
    subst e
    obtain ⟨a, b, rfl, rfl⟩ := adv_cur ht
    refine (ih2 rfl hr hi hj (by intro _ h; cases h) (errorsOf_append_nil.1 hl).2).mono ?_
      (fun ev he => List.mem_append_right _ he)
    rw [bytesOf_append']
    omega
  | rep_stop h hcond ih => intro _ _ _ _ e; cases e
  | rep_fail h ih =>
    intro pre s d e hr hi hj _ hl
    exact ih e rfl hi hj (by intro _ h; cases h) hl
  | rep_panic h ih => intro _ _ _ _ e; cases e
  | opt_ok h ih => intro _ _ _ _ e; cases e
  | opt_none h ih => intro _ _ _ _ e; cases e
  | opt_panic h ih => intro _ _ _ _ e; cases e
  | recover h ih => intro _ _ _ _ _ _ hj; cases hj
  | throw h ih => intro _ _ _ _ _ _ hj; cases hj
  | throw_nil => intro _ _ _ _ _ _ hj; cases hj
  | throw_skip hne h ih => intro _ _ _ _ _ _ hj; cases hj
  | throw_ok h ih => intro _ _ _ _ _ _ hj; cases hj
  | throw_next h1 h2 ih1 ih2 => intro _ _ _ _ _ _ hj; cases hj
  | throw_panic h ih => intro _ _ _ _ _ _ hj; cases hj
  | state => intro _ _ _ _ e; cases e

/-! ### Two texts -/

/-- A failed test beyond `p`, or something matched beyond `p`. -/
def Beyond (p : Str) (l : List Ev) (r : Res) : Prop :=
  FailsFrom (bytesOf p + 1) l ∨ ∃ v c fr, r = .ok v c fr ∧ bytesOf p < c.loc.off

/-- A test failed at the end of `p` that `t` meets. -/
def Hit (E : Env) (p t : Str) (l : List Ev) : Prop :=
  ∃ q w T, Ev.mark false false q w ∈ l ∧ q.off = bytesOf p ∧ readWant w = some T ∧ T.Begins E t

/-- A word failed within `p` that begins there and is completed by `t`. -/
def Torn (p r t : Str) (l : List Ev) : Prop :=
  ∃ w p1 k1 k2 t', Ev.mark false false (locAt p1 (k1 ++ r)) w ∈ l ∧ p = p1 ++ k1 ∧ t = k2 ++ t' ∧ k1 ≠ [] ∧ k2 ≠ [] ∧
    readWant w = some (.lit (k1 ++ k2) false)

/-- Both fail, or both match the same part of `x`. -/
def Same (pre x r t : Str) : Res → Res → Prop
  | .ok _ c1 _, .ok _ c2 _ => ∃ a b, x = a ++ b ∧ c1 = cur (pre ++ a) (b ++ r) ∧ c2 = cur (pre ++ a) (b ++ t)
  | .fail _, .fail _ => True
  | _, _ => False

theorem Hit.mono {p t : Str} {l l' : List Ev} (h : Hit E p t l) (hl : ∀ ev ∈ l, ev ∈ l') : Hit E p t l' := by
  obtain ⟨q, w, T, h1, h2⟩ := h
  exact ⟨q, w, T, hl _ h1, h2⟩

theorem Torn.mono {p r t : Str} {l l' : List Ev} (h : Torn p r t l) (hl : ∀ ev ∈ l, ev ∈ l') : Torn p r t l' := by
  obtain ⟨w, p1, k1, k2, t', h1, h2⟩ := h
  exact ⟨w, p1, k1, k2, t', hl _ h1, h2⟩

/-- The same evaluation of another text. -/
def Job.Like : Job → Job → Prop
  | .expr e _, .expr e' _ => e = e'
  | .seq _ es _ _, .seq _ es' _ _ => es = es'
  | .choice _ es, .choice _ es' => es = es'
  | .rep _ e one acc, .rep _ e' one' acc' => e = e' ∧ one = one' ∧ (acc = [] ↔ acc' = [])
  | _, _ => False

/-- What the first test that tells the texts apart leaves behind. -/
def Apart (E : Env) (p r t : Str) (l : List Ev) (r1 : Res) : Prop :=
  Hit E p t l ∨ Beyond p l r1 ∨ Torn p r t l

/-- What the comparison of two runs gives. -/
def Compared (E : Env) (p r t pre x : Str) (l : List Ev) (r1 r2 : Res) : Prop :=
  Same pre x r t r1 r2 ∨ Apart E p r t l r1

/-- The same outcome, up to values. -/
def Res.Eqv : Res → Res → Prop
  | .ok _ c _, .ok _ c' _ => c = c'
  | .fail _, .fail _ => True
  | _, _ => False

theorem Apart.inner {p r t : Str} {l l' : List Ev} {r1 r1' : Res} (h : Apart E p r t l r1)
    (hl : ∀ ev ∈ l, ev ∈ l') (hr : ∀ v c fr, r1 = .ok v c fr → ∃ v fr, r1' = .ok v c fr) : Apart E p r t l' r1' := by
  rcases h with h | (h | ⟨v, c, fr, h, ho⟩) | h
  · exact .inl (h.mono hl)
  · exact .inr (.inl (.inl (h.mono (Nat.le_refl _) hl)))
  · obtain ⟨v', fr', h'⟩ := hr v c fr h
    exact .inr (.inl (.inr ⟨_, _, _, h', ho⟩))
  · exact .inr (.inr (h.mono hl))

theorem Compared.inner {p r t pre x : Str} {l l' : List Ev} {r1 r2 r1' r2' : Res} (h : Compared E p r t pre x l r1 r2)
    (hl : ∀ ev ∈ l, ev ∈ l') (h1 : r1.Eqv r1') (h2 : r2.Eqv r2') : Compared E p r t pre x l' r1' r2' := by
  rcases h with h | h
  · left
    cases r1 <;> cases r1' <;> cases r2 <;> cases r2' <;> simp_all [Same, Res.Eqv]
  · refine .inr (h.inner hl ?_)
    rintro v c fr rfl
    cases r1' <;> simp_all [Res.Eqv]

/-- Not a panic. -/
def Res.Calm : Res → Prop
  | .panic .. => False
  | _ => True

theorem action_clean {ctx : Ctx} {a : Act} {e : PExpr} {fr : VFrame} {c : Cursor} {l : List Ev} {r : Res}
    (h : Big E ctx (.expr (.action a e) fr) c l r) (hl : errorsOf l = []) (hr : r.Calm) :
    ∃ l' r', Big E ctx (.expr e fr) c l' r' ∧ errorsOf l' = [] ∧ r'.Calm ∧ r'.Eqv r ∧ ∀ ev ∈ l', ev ∈ l := by
  cases h with
  | action_ok h _ => exact ⟨_, _, h, hl, trivial, rfl, fun ev he => List.mem_cons_of_mem _ he⟩
  | action_err h _ =>
    rw [errorsOf_cons_tick, errorsOf_append_nil] at hl
    cases hl.2
  | action_panic h _ => exact hr.elim
  | action_stop h hs =>
    refine ⟨_, _, h, hl, hr, ?_, fun ev he => List.mem_cons_of_mem _ he⟩
    cases r <;> simp_all [Res.Eqv, Res.stops, Res.Calm]

theorem label_clean {ctx : Ctx} {x : PLabel} {e : PExpr} {fr : VFrame} {c : Cursor} {l : List Ev} {r : Res}
    (h : Big E ctx (.expr (.label x e) fr) c l r) (hl : errorsOf l = []) (hr : r.Calm) :
    ∃ l' r', Big E ctx (.expr e []) c l' r' ∧ errorsOf l' = [] ∧ r'.Calm ∧ r'.Eqv r ∧ ∀ ev ∈ l', ev ∈ l := by
  cases h with
  | label_ok h => exact ⟨_, _, h, hl, trivial, rfl, fun ev he => List.mem_cons_of_mem _ he⟩
  | label_stop h hs =>
    refine ⟨_, _, h, hl, hr, ?_, fun ev he => List.mem_cons_of_mem _ he⟩
    cases r <;> simp_all [Res.Eqv, Res.stops, Res.Calm]

theorem rule_clean {ctx : Ctx} {x : Rule} {fr : VFrame} {c : Cursor} {l : List Ev} {r : Res}
    (h : Big E ctx (.expr (.rule x) fr) c l r) (hl : errorsOf l = []) (hr : r.Calm) :
    ∃ l' r', Big E ctx (.expr (grammar x) []) c l' r' ∧ errorsOf l' = [] ∧ r'.Calm ∧ r'.Eqv r ∧ ∀ ev ∈ l', ev ∈ l := by
  cases h with
  | rule_ok h => exact ⟨_, _, h, hl, trivial, rfl, fun ev he => List.mem_cons_of_mem _ he⟩
  | rule_stop h hs =>
    refine ⟨_, _, h, hl, hr, ?_, fun ev he => List.mem_cons_of_mem _ he⟩
    cases r <;> simp_all [Res.Eqv, Res.stops, Res.Calm]

/-- What follows something apart. -/
theorem Apart.after {p r t : Str} {l l' : List Ev} {v : PV} {pre s : Str} {fr : VFrame} {ctx : Ctx} {j : Job} {r' : Res}
    (h : Apart E p r t l (.ok v (cur pre s) fr)) (hb : Big E ctx j (cur pre s) l' r') (hi : ctx.inv = false)
    (hj : j.plain = true) (hn : ∀ fr, j ≠ .choice fr []) (hl : errorsOf l' = []) (hr : r'.Calm) :
    Apart E p r t (l ++ l') r' := by
  rcases h with h | (h | ⟨v, c, fr, h, ho⟩) | h
  · exact .inl (h.mono fun ev he => List.mem_append_left _ he)
  · exact .inr (.inl (.inl (h.mono (Nat.le_refl _) fun ev he => List.mem_append_left _ he)))
  · cases h
    rw [cur_off] at ho
    cases r' with
    | ok v' c' fr' =>
      obtain ⟨u, hu⟩ := hb.ok_adv
      obtain ⟨a, b, rfl, rfl⟩ := adv_cur hu
      refine .inr (.inl (.inr ⟨_, _, _, rfl, ?_⟩))
      rw [cur_off, bytesOf_append']
      omega
    | fail d =>
      exact .inr (.inl (.inl ((hb.failed rfl rfl hi hj hn hl).mono ho fun ev he => List.mem_append_right _ he)))
    | panic _ _ => exact hr.elim
  · exact .inr (.inr (h.mono fun ev he => List.mem_append_left _ he))

theorem bytesOf_lt {a b : Str} (h : a.length < b.length) {x y : Str} (e : a ++ x = b ++ y) : bytesOf a < bytesOf b := by
  rcases List.append_eq_append_iff.1 e with ⟨c, rfl, -⟩ | ⟨c, rfl, -⟩
  · cases c with
    | nil => simp at h
    | cons z c =>
      rw [bytesOf_append']
      have := bytesOf_pos (c := z) (s := c)
      omega
  · simp at h

/-- What is matched either ends within `x` or beyond it. -/
theorem within {x r a b : Str} (h : x ++ r = a ++ b) : (∃ c, x = a ++ c ∧ b = c ++ r) ∨ x.length < a.length := by
  rcases List.append_eq_append_iff.1 h with ⟨c, rfl, h2⟩ | ⟨c, rfl, h2⟩
  · cases c with
    | nil => exact .inl ⟨[], by simp, by simpa using h2.symm⟩
    | cons z c => exact .inr (by simp)
  · exact .inl ⟨c, rfl, h2⟩

/-- Matching something longer than `x`. -/
theorem beyond_ok {p r pre x a b : Str} {l : List Ev} {v : PV} {fr : VFrame} (hp : p = pre ++ x)
    (h : x ++ r = a ++ b) (hlt : x.length < a.length) : Beyond p l (.ok v (cur (pre ++ a) b) fr) := by
  refine .inr ⟨_, _, _, rfl, ?_⟩
  rw [cur_off, hp, bytesOf_append', bytesOf_append']
  have := bytesOf_lt hlt h
  omega

/-! ### Tests of one place in two texts -/

theorem cls_align {ctx : Ctx} {cs : List Char} {rs : List (Char × Char)} {ic inv : Bool} {w : Str} {fr fr' : VFrame}
    {p r t pre x : Str} {l1 l2 : List Ev} {r1 r2 : Res}
    (h1 : Big E ctx (.expr (.cls cs rs ic inv w) fr) (cur pre (x ++ r)) l1 r1)
    (h2 : Big E ctx (.expr (.cls cs rs ic inv w) fr') (cur pre (x ++ t)) l2 r2) (hp : p = pre ++ x) (hi : ctx.inv = false)
    (ht : clsReads cs rs ic inv w = true) : Compared E p r t pre x l1 r1 r2 := by
  cases x with
  | cons y x =>
    left
    cases h1 with
    | cls_ok e1 m1 =>
      cases e1
      cases h2 with
      | cls_ok e2 m2 =>
        refine ⟨[y], x, rfl, ?_, ?_⟩
        · rw [List.cons_append, cur_next]
        · rw [List.cons_append, cur_next]
      | cls_fail f2 =>
        have := f2 _ _ rfl
        rw [this] at m1
        cases m1
    | cls_fail f1 =>
      cases h2 with
      | cls_ok e2 m2 =>
        cases e2
        have := f1 _ _ rfl
        rw [this] at m2
        cases m2
      | cls_fail f2 => exact trivial
  | nil =>
    rw [List.append_nil] at hp
    subst hp
    cases h1 with
    | @cls_ok _ _ _ _ _ _ _ _ s u e1 m1 =>
      right; right; left
      cases r with
      | nil => cases e1
      | cons y r =>
        have := beyond_ok (p := p) (r := y :: r) (pre := p) (x := []) (a := [y]) (b := r) (l := (.tick ::
          (encErr (cur p (y :: r)).next ++ [Ev.mark true ctx.inv (cur p (y :: r)).loc w]))) (v := .bytes (textOf (cur p (y :: r)) (cur p (y :: r)).next)) (fr := fr)
          (by simp) rfl (by simp)
        rw [← cur_next] at this
        exact this
    | cls_fail f1 =>
      cases h2 with
      | cls_ok e2 m2 =>
        right; left
        cases t with
        | nil => cases e2
        | cons y t =>
          cases e2
          refine ⟨locAt p ([] ++ r), w, _, ?_, locAt_off _ _, beq_iff_eq.1 ht, cls_begins.2 ⟨y, t, rfl, m2⟩⟩
          rw [hi]
          simp [cur]
      | cls_fail f2 => exact .inl trivial

theorem lit_run {ctx : Ctx} {val : Str} {ic : Bool} {w : Str} {fr : VFrame} {pre s : Str} {l : List Ev} {r : Res}
    (h : Big E ctx (.expr (.lit val ic w) fr) (cur pre s) l r) :
    (∃ a b v, s = a ++ b ∧ a.map (fun x => if ic then goLower E x else x) = val ∧ r = .ok v (cur (pre ++ a) b) fr) ∨
    ((∀ a b, s = a ++ b → a.map (fun x => if ic then goLower E x else x) ≠ val) ∧ r = .fail (cur pre s) ∧
      Ev.mark false ctx.inv (cur pre s).loc w ∈ l) := by
  by_cases hm : ∃ a b, s = a ++ b ∧ a.map (fun x => if ic then goLower E x else x) = val
  · obtain ⟨a, b, hs, ha⟩ := hm
    have hl := (litLoop_cur (E := E) ic val pre s).1 a b hs ha
    left
    cases h with
    | lit_ok h => rw [hl] at h; cases h; exact ⟨a, b, _, hs, ha, rfl⟩
    | lit_fail h => rw [hl] at h; cases h
  · right
    have hn : ∀ a b, s = a ++ b → a.map (fun x => if ic then goLower E x else x) ≠ val := fun a b h1 h2 => hm ⟨a, b, h1, h2⟩
    have hl := (litLoop_cur (E := E) ic val pre s).2 hn
    cases h with
    | lit_ok h => rw [hl] at h; cases h
    | lit_fail h => exact ⟨hn, rfl, by simp⟩

theorem lit_align {ctx : Ctx} {val : Str} {ic : Bool} {w : Str} {fr fr' : VFrame}
    {p r t pre x : Str} {l1 l2 : List Ev} {r1 r2 : Res}
    (h1 : Big E ctx (.expr (.lit val ic w) fr) (cur pre (x ++ r)) l1 r1)
    (h2 : Big E ctx (.expr (.lit val ic w) fr') (cur pre (x ++ t)) l2 r2) (hp : p = pre ++ x) (hi : ctx.inv = false)
    (hj : plainE (.lit val ic w) = true) (ht : litReads val ic w = true) : Compared E p r t pre x l1 r1 r2 := by
  rcases lit_run h1 with ⟨a, b, v, hs, ha, rfl⟩ | ⟨hn, rfl, hm⟩
  · rcases within hs with ⟨c, rfl, rfl⟩ | hlt
    · rcases lit_run h2 with ⟨a', b', v', hs', ha', rfl⟩ | ⟨hn', rfl, hm'⟩
      · have hlen : a.length = a'.length := by
          have := congrArg List.length (ha.trans ha'.symm)
          simpa using this
        rw [List.append_assoc] at hs'
        obtain ⟨rfl, rfl⟩ := List.append_inj hs' hlen
        exact .inl ⟨a, c, rfl, rfl, rfl⟩
      · exact absurd ha (hn' a (c ++ t) (by simp))
    · exact .inr (.inr (.inl (beyond_ok hp hs hlt)))
  · rcases lit_run h2 with ⟨a', b', v', hs', ha', rfl⟩ | ⟨hn', rfl, hm'⟩
    · right
      rw [hi] at hm
      rcases within hs' with ⟨c, rfl, rfl⟩ | hlt
      · exact absurd ha' (hn a' (c ++ r) (by simp))
      · cases x with
        | nil =>
          rw [List.append_nil] at hp
          subst hp
          left
          obtain ⟨T, hT, hb⟩ := lit_begins (E := E) (s := t) ht
          exact ⟨_, w, T, hm, cur_off _ _, hT, hb.2 ⟨a', b', hs', ha'⟩⟩
        | cons y x =>
          right; right
          have hic : ic = false := by
            cases ic
            · rfl
            · simp only [plainE, Bool.not_true, Bool.false_or, beq_iff_eq] at hj
              rw [← ha'] at hj
              simp at hj hlt
              omega
          subst hic
          simp only [Bool.false_eq_true, if_false, List.map_id'] at ha'
          subst ha'
          rcases List.append_eq_append_iff.1 hs' with ⟨c, rfl, rfl⟩ | ⟨c, he, -⟩
          · refine ⟨w, pre, y :: x, c, b', hm, hp, rfl, by simp, ?_, ?_⟩
            · rintro rfl
              simp at hlt
            · unfold litReads at ht
              split at ht
              · rename_i u ic' hw
                simp only [Bool.and_eq_true, beq_iff_eq, Bool.false_eq_true, if_false] at ht
                rw [hw, ht.1, ht.2]
              · cases ht
          · rw [he] at hlt
            simp at hlt
    · exact .inl trivial

theorem tok_align {ctx : Ctx} {x : Rule} {q : Char} {w : Str} (T : TokRule E ctx x q w) {fr fr' : VFrame}
    {p r t pre y : Str} {l1 l2 : List Ev} {r1 r2 : Res}
    (h1 : Big E ctx (.expr (.rule x) fr) (cur pre (y ++ r)) l1 r1)
    (h2 : Big E ctx (.expr (.rule x) fr') (cur pre (y ++ t)) l2 r2) (hp : p = pre ++ y) (hi : ctx.inv = false)
    (e1 : errorsOf l1 = []) (e2 : errorsOf l2 = []) (c1 : r1.Calm) (c2 : r2.Calm) :
    Compared E p r t pre y l1 r1 r2 := by
  cases r1 with
  | panic _ _ => exact c1.elim
  | ok v d g =>
    obtain ⟨a, b, rfl, ho⟩ := okJ_of_big h1 e1
    have hr := (okR.1 ho).2
    rcases within ho.1 with ⟨c, rfl, rfl⟩ | hlt
    · left
      have hm := T.moves (c := c ++ t) hr
      cases r2 with
      | panic _ _ => exact c2.elim
      | ok v' d' g' =>
        obtain ⟨a', b', rfl, ho'⟩ := okJ_of_big h2 e2
        rw [List.append_assoc] at ho'
        obtain ⟨-, rfl, rfl, -⟩ := Ok.det (okR.2 ⟨rfl, hm⟩) ho'
        exact ⟨a, c, rfl, rfl, rfl⟩
      | fail d' =>
        rw [List.append_assoc] at h2
        exact (Ok.notNo (okR.2 ⟨rfl, hm⟩) ⟨_, _, h2, e2⟩).elim
    · exact .inr (.inr (.inl (beyond_ok hp ho.1 hlt)))
  | fail d =>
    obtain ⟨hn, hm⟩ := T.fails h1 e1
    cases r2 with
    | panic _ _ => exact c2.elim
    | fail d' => exact .inl trivial
    | ok v' d' g' =>
      obtain ⟨a', b', rfl, ho'⟩ := okJ_of_big h2 e2
      obtain ⟨u, rfl⟩ := T.head (okR.1 ho').2
      cases y with
      | cons z y =>
        have := ho'.1
        rw [List.cons_append, List.cons_append, List.cons.injEq] at this
        exact absurd this.1 (hn z (y ++ r) rfl)
      | nil =>
        rw [List.append_nil] at hp
        subst hp
        rw [hi] at hm
        have := ho'.1
        exact .inr (.inl ⟨_, w, _, hm, cur_off _ _, T.reads, [q], u ++ [q] ++ b', by simpa using this, by simp⟩)

/-! ### The comparison -/

theorem mem_tick {l : List Ev} : ∀ ev ∈ l, ev ∈ Ev.tick :: l := fun _ he => List.mem_cons_of_mem _ he

theorem Res.Eqv.rfl' {r : Res} (h : r.Calm) : r.Eqv r := by
  cases r <;> simp_all [Res.Eqv, Res.Calm]

/-- Two runs, over texts that begin with `p`. -/
theorem Big.align {ctx : Ctx} {j : Job} {c : Cursor} {l1 : List Ev} {r1 : Res} (h1 : Big E ctx j c l1 r1) :
    ∀ {p r t pre x : Str} {j2 : Job} {l2 : List Ev} {r2 : Res}, c = cur pre (x ++ r) → p = pre ++ x → ctx.inv = false →
      j.plain = true → j.told = true → Big E ctx j2 (cur pre (x ++ t)) l2 r2 → j.Like j2 →
      errorsOf l1 = [] → errorsOf l2 = [] → r1.Calm → r2.Calm → Compared E p r t pre x l1 r1 r2 := by
  induction h1 with
  | action_ok h ha ih =>
    intro p r t pre x j2 l2 r2 hc hp hi hj ht h2 hk e1 e2 c1 c2
    cases j2 <;> first | (cases hk; done) | skip
    subst hk
    obtain ⟨l', r', h', el, cl, hv, -⟩ := action_clean h2 e2 c2
    exact (ih hc hp hi hj ht h' rfl e1 el trivial cl).inner mem_tick rfl hv
  | action_err h ha ih =>
    intro p r t pre x j2 l2 r2 hc hp hi hj ht h2 hk e1 e2 c1 c2
    rw [errorsOf_cons_tick, errorsOf_append_nil] at e1
    cases e1.2
  | action_panic h ha ih => intro p r t pre x j2 l2 r2 hc hp hi hj ht h2 hk e1 e2 c1 c2; exact c1.elim
  | action_stop h hs ih =>
    intro p r t pre x j2 l2 r2 hc hp hi hj ht h2 hk e1 e2 c1 c2
    cases j2 <;> first | (cases hk; done) | skip
    subst hk
    obtain ⟨l', r', h', el, cl, hv, -⟩ := action_clean h2 e2 c2
    exact (ih hc hp hi hj ht h' rfl e1 el c1 cl).inner mem_tick (.rfl' c1) hv
  | seq h ih =>
    intro p r t pre x j2 l2 r2 hc hp hi hj ht h2 hk e1 e2 c1 c2
    cases j2 <;> first | (cases hk; done) | skip
    subst hk
    cases h2 with
    | seq h' => exact (ih hc hp hi hj ht h' rfl e1 e2 c1 c2).inner mem_tick (.rfl' c1) (.rfl' c2)
  | seq_nil =>
    intro p r t pre x j2 l2 r2 hc hp hi hj ht h2 hk e1 e2 c1 c2
    cases j2 <;> first | (cases hk; done) | skip
    subst hk
    cases h2 with
    | seq_nil => exact .inl ⟨[], x, rfl, by rw [hc]; simp, by simp⟩
  | @seq_cons ctx st e es acc fr c l v c' fr' l' ro h1 h2 ih1 ih2 =>
    intro p r t pre x j2 l2 r2 hc hp hi hj ht h3 hk e1 e2 c1 c2
    cases j2 <;> first | (cases hk; done) | skip
    subst hk hc
    rw [Job.plain, plainL, Bool.and_eq_true] at hj
    rw [Job.told, toldL, Bool.and_eq_true] at ht
    rw [errorsOf_append_nil] at e1
    obtain ⟨u, hu⟩ := h1.ok_adv
    obtain ⟨a, b, hs, rfl⟩ := adv_cur hu
    cases h3 with
    | seq_cons h3 h4 =>
      rw [errorsOf_append_nil] at e2
      rcases ih1 rfl hp hi hj.1 ht.1 h3 rfl e1.1 e2.1 trivial trivial with ⟨a', b', rfl, he, rfl⟩ | h
      · have := ih2 (p := p) he (by rw [hp, List.append_assoc]) hi hj.2 ht.2 h4 rfl e1.2 e2.2 c1 c2
        rcases this with h | h
        · left
          cases r2 <;> cases ro <;> first | (cases h; done) | trivial | skip
          obtain ⟨a2, b2, rfl, e3, e4⟩ := h
          exact ⟨a' ++ a2, b2, by simp, by rw [e3, List.append_assoc], by rw [e4, List.append_assoc]⟩
        · exact .inr (h.inner (fun ev he => List.mem_append_right _ he) (fun v c fr h => ⟨v, fr, h⟩))
      · exact .inr (h.after h2 hi hj.2 (by intro _ h; cases h) e1.2 c1)
    | seq_fail h3 =>
      rcases ih1 rfl hp hi hj.1 ht.1 h3 rfl e1.1 e2 trivial trivial with h | h
      · cases h
      · exact .inr (h.after h2 hi hj.2 (by intro _ h; cases h) e1.2 c1)
    | seq_panic h3 => exact c2.elim
  | seq_fail h ih =>
    intro p r t pre x j2 l2 r2 hc hp hi hj ht h3 hk e1 e2 c1 c2
    cases j2 <;> first | (cases hk; done) | skip
    subst hk
    rw [Job.plain, plainL, Bool.and_eq_true] at hj
    rw [Job.told, toldL, Bool.and_eq_true] at ht
    cases h3 with
    | seq_cons h3 h4 =>
      rw [errorsOf_append_nil] at e2
      rcases ih hc hp hi hj.1 ht.1 h3 rfl e1 e2.1 trivial trivial with h | h
      · cases h
      · exact .inr (h.inner (fun ev he => he) (fun v c fr h => by cases h))
    | seq_fail h3 => exact .inl trivial
    | seq_panic h3 => exact c2.elim
  | seq_panic h ih => intro p r t pre x j2 l2 r2 hc hp hi hj ht h2 hk e1 e2 c1 c2; exact c1.elim
  | choice h ih =>
    intro p r t pre x j2 l2 r2 hc hp hi hj ht h2 hk e1 e2 c1 c2
    cases j2 <;> first | (cases hk; done) | skip
    subst hk
    rw [Job.plain, plainE, Bool.and_eq_true] at hj
    cases h2 with
    | choice h' => exact (ih hc hp hi hj.2 ht h' rfl e1 e2 c1 c2).inner mem_tick (.rfl' c1) (.rfl' c2)
  | choice_nil =>
    intro p r t pre x j2 l2 r2 hc hp hi hj ht h2 hk e1 e2 c1 c2
    cases j2 <;> first | (cases hk; done) | skip
    subst hk
    cases h2 with
    | choice_nil => exact .inl trivial
  | choice_ok h ih =>
    intro p r t pre x j2 l2 r2 hc hp hi hj ht h3 hk e1 e2 c1 c2
    cases j2 <;> first | (cases hk; done) | skip
    subst hk
    rw [Job.plain, plainL, Bool.and_eq_true] at hj
    rw [Job.told, toldL, Bool.and_eq_true] at ht
    cases h3 with
    | choice_ok h3 =>
      exact (ih hc hp hi hj.1 ht.1 h3 rfl e1 e2 trivial trivial).inner (fun ev he => he) rfl rfl
    | choice_next h3 h4 =>
      rw [errorsOf_append_nil] at e2
      rcases ih hc hp hi hj.1 ht.1 h3 rfl e1 e2.1 trivial trivial with h | h
      · cases h
      · exact .inr (h.inner (fun ev he => he) (fun v c fr h => by cases h; exact ⟨_, _, rfl⟩))
    | choice_panic h3 => exact c2.elim
  | choice_next h1 h2 ih1 ih2 =>
    intro p r t pre x j2 l2 r2 hc hp hi hj ht h3 hk e1 e2 c1 c2
    cases j2 <;> first | (cases hk; done) | skip
    subst hk
    rw [Job.plain, plainL, Bool.and_eq_true] at hj
    rw [Job.told, toldL, Bool.and_eq_true] at ht
    rw [errorsOf_append_nil] at e1
    have hb := h1.fail_back
    subst hb
    cases h3 with
    | choice_ok h3 =>
      rcases ih1 hc hp hi hj.1 ht.1 h3 rfl e1.1 e2 trivial trivial with h | h
      · cases h
      · exact .inr (h.inner (fun ev he => List.mem_append_left _ he) (fun v c fr h => by cases h))
    | choice_next h3 h4 =>
      rw [errorsOf_append_nil] at e2
      have hb := h3.fail_back
      subst hb
      rcases ih1 hc hp hi hj.1 ht.1 h3 rfl e1.1 e2.1 trivial trivial with h | h
      · exact (ih2 hc hp hi hj.2 ht.2 h4 rfl e1.2 e2.2 c1 c2).inner (fun ev he => List.mem_append_right _ he)
          (.rfl' c1) (.rfl' c2)
      · exact .inr (h.inner (fun ev he => List.mem_append_left _ he) (fun v c fr h => by cases h))
    | choice_panic h3 => exact c2.elim
  | choice_panic h ih => intro p r t pre x j2 l2 r2 hc hp hi hj ht h2 hk e1 e2 c1 c2; exact c1.elim
  | label_ok h ih =>
    intro p r t pre x j2 l2 r2 hc hp hi hj ht h2 hk e1 e2 c1 c2
    cases j2 <;> first | (cases hk; done) | skip
    subst hk
    obtain ⟨l', r', h', el, cl, hv, -⟩ := label_clean h2 e2 c2
    exact (ih hc hp hi hj ht h' rfl e1 el trivial cl).inner mem_tick rfl hv
  | label_stop h hs ih =>
    intro p r t pre x j2 l2 r2 hc hp hi hj ht h2 hk e1 e2 c1 c2
    cases j2 <;> first | (cases hk; done) | skip
    subst hk
    obtain ⟨l', r', h', el, cl, hv, -⟩ := label_clean h2 e2 c2
    exact (ih hc hp hi hj ht h' rfl e1 el c1 cl).inner mem_tick (.rfl' c1) hv
  | @rule_ok ctx y fr c l v c' fr' h ih =>
    intro p r t pre x j2 l2 r2 hc hp hi hj ht h2 hk e1 e2 c1 c2
    cases j2 <;> first | (cases hk; done) | skip
    subst hk
    cases hy : isTok y
    · obtain ⟨l', r', h', el, cl, hv, -⟩ := rule_clean h2 e2 c2
      exact (ih hc hp hi (plain_grammar _ hj hy) (told_grammar _) h' rfl e1 el trivial cl).inner mem_tick rfl hv
    · obtain ⟨q, w, T⟩ := tok_rule (E := E) hy ctx
      subst hc
      exact tok_align T (.rule_ok (fr := fr) h) h2 hp hi e1 e2 c1 c2
  | @rule_stop ctx y fr c l r' h hs ih =>
    intro p r t pre x j2 l2 r2 hc hp hi hj ht h2 hk e1 e2 c1 c2
    cases j2 <;> first | (cases hk; done) | skip
    subst hk
    cases hy : isTok y
    · obtain ⟨l', r', h', el, cl, hv, -⟩ := rule_clean h2 e2 c2
      exact (ih hc hp hi (plain_grammar _ hj hy) (told_grammar _) h' rfl e1 el c1 cl).inner mem_tick (.rfl' c1) hv
    · obtain ⟨q, w, T⟩ := tok_rule (E := E) hy ctx
      subst hc
      exact tok_align T (.rule_stop (fr := fr) h hs) h2 hp hi e1 e2 c1 c2
  | lit_ok h =>
    intro p r t pre x j2 l2 r2 hc hp hi hj ht h2 hk e1 e2 c1 c2
    cases j2 <;> first | (cases hk; done) | skip
    subst hk hc
    exact lit_align (.lit_ok h) h2 hp hi hj ht
  | lit_fail h =>
    intro p r t pre x j2 l2 r2 hc hp hi hj ht h2 hk e1 e2 c1 c2
    cases j2 <;> first | (cases hk; done) | skip
    subst hk hc
    exact lit_align (.lit_fail (fr := []) h) h2 hp hi hj ht
  | cls_ok hr hm =>
    intro p r t pre x j2 l2 r2 hc hp hi hj ht h2 hk e1 e2 c1 c2
    cases j2 <;> first | (cases hk; done) | skip
    subst hk hc
    exact cls_align (.cls_ok hr hm) h2 hp hi ht
  | cls_fail h =>
    intro p r t pre x j2 l2 r2 hc hp hi hj ht h2 hk e1 e2 c1 c2
    cases j2 <;> first | (cases hk; done) | skip
    subst hk hc
    exact cls_align (.cls_fail (fr := []) h) h2 hp hi ht
  | any_ok hr => intro p r t pre x j2 l2 r2 hc hp hi hj; cases hj
  | any_eof hr => intro p r t pre x j2 l2 r2 hc hp hi hj; cases hj
  | not_ok h ih => intro p r t pre x j2 l2 r2 hc hp hi hj; cases hj
  | not_fail h ih => intro p r t pre x j2 l2 r2 hc hp hi hj; cases hj
  | not_panic h ih => intro p r t pre x j2 l2 r2 hc hp hi hj; cases hj
  | star h ih =>
    intro p r t pre x j2 l2 r2 hc hp hi hj ht h2 hk e1 e2 c1 c2
    cases j2 <;> first | (cases hk; done) | skip
    subst hk
    cases h2 with
    | star h' =>
      exact (ih hc hp hi hj ht h' ⟨rfl, rfl, Iff.rfl⟩ e1 e2 c1 c2).inner mem_tick (.rfl' c1) (.rfl' c2)
  | plus h ih =>
    intro p r t pre x j2 l2 r2 hc hp hi hj ht h2 hk e1 e2 c1 c2
    cases j2 <;> first | (cases hk; done) | skip
    subst hk
    cases h2 with
    | plus h' =>
      exact (ih hc hp hi hj ht h' ⟨rfl, rfl, Iff.rfl⟩ e1 e2 c1 c2).inner mem_tick (.rfl' c1) (.rfl' c2)
  | @rep_next ctx fr e one acc c l v c' fr' l' ro h1 h2 ih1 ih2 =>
    intro p r t pre x j2 l2 r2 hc hp hi hj ht h3 hk e1 e2 c1 c2
    cases j2 <;> first | (cases hk; done) | skip
    obtain ⟨rfl, rfl, hacc⟩ := hk
    subst hc
    rw [errorsOf_append_nil] at e1
    obtain ⟨u, hu⟩ := h1.ok_adv
    obtain ⟨a, b, hs, rfl⟩ := adv_cur hu
    cases h3 with
    | rep_next h3 h4 =>
      rw [errorsOf_append_nil] at e2
      rcases ih1 rfl hp hi hj ht h3 rfl e1.1 e2.1 trivial trivial with ⟨a', b', rfl, he, rfl⟩ | h
      · have := ih2 (p := p) he (by rw [hp, List.append_assoc]) hi hj ht h4 ⟨rfl, rfl, by simp⟩ e1.2 e2.2 c1 c2
        rcases this with h | h
        · left
          cases r2 <;> cases ro <;> first | (cases h; done) | trivial | skip
          obtain ⟨a2, b2, rfl, e3, e4⟩ := h
          exact ⟨a' ++ a2, b2, by simp, by rw [e3, List.append_assoc], by rw [e4, List.append_assoc]⟩
        · exact .inr (h.inner (fun ev he => List.mem_append_right _ he) (fun v c fr h => ⟨v, fr, h⟩))
      · exact .inr (h.after h2 hi hj (by intro _ h; cases h) e1.2 c1)
    | rep_stop h3 _ =>
      rcases ih1 rfl hp hi hj ht h3 rfl e1.1 e2 trivial trivial with h | h
      · cases h
      · exact .inr (h.after h2 hi hj (by intro _ h; cases h) e1.2 c1)
    | rep_fail h3 =>
      rcases ih1 rfl hp hi hj ht h3 rfl e1.1 e2 trivial trivial with h | h
      · cases h
      · exact .inr (h.after h2 hi hj (by intro _ h; cases h) e1.2 c1)
    | rep_panic h3 => exact c2.elim
  | rep_stop h hcond ih =>
    intro p r t pre x j2 l2 r2 hc hp hi hj ht h3 hk e1 e2 c1 c2
    cases j2 <;> first | (cases hk; done) | skip
    obtain ⟨rfl, rfl, hacc⟩ := hk
    have hb := h.fail_back
    subst hb
    cases h3 with
    | rep_next h3 h4 =>
      rw [errorsOf_append_nil] at e2
      rcases ih hc hp hi hj ht h3 rfl e1 e2.1 trivial trivial with h | h
      · cases h
      · exact .inr (h.inner (fun ev he => he) (fun v c fr h => by cases h))
    | rep_stop h3 _ =>
      have hb := h3.fail_back
      subst hb
      rcases ih hc hp hi hj ht h3 rfl e1 e2 trivial trivial with h | h
      · exact .inl ⟨[], x, rfl, by rw [hc]; simp, by simp⟩
      · exact .inr (h.inner (fun ev he => he) (fun v c fr h => by cases h))
    | rep_fail h3 => exact absurd ⟨rfl, hacc.2 rfl⟩ hcond
    | rep_panic h3 => exact c2.elim
  | rep_fail h ih =>
    intro p r t pre x j2 l2 r2 hc hp hi hj ht h3 hk e1 e2 c1 c2
    cases j2 <;> first | (cases hk; done) | skip
    obtain ⟨rfl, rfl, hacc⟩ := hk
    cases h3 with
    | rep_next h3 h4 =>
      rw [errorsOf_append_nil] at e2
      rcases ih hc hp hi hj ht h3 rfl e1 e2.1 trivial trivial with h | h
      · cases h
      · exact .inr (h.inner (fun ev he => he) (fun v c fr h => by cases h))
    | rep_stop h3 hcond => exact absurd ⟨rfl, hacc.1 rfl⟩ hcond
    | rep_fail h3 => exact .inl trivial
    | rep_panic h3 => exact c2.elim
  | rep_panic h ih => intro p r t pre x j2 l2 r2 hc hp hi hj ht h2 hk e1 e2 c1 c2; exact c1.elim
  | opt_ok h ih =>
    intro p r t pre x j2 l2 r2 hc hp hi hj ht h3 hk e1 e2 c1 c2
    cases j2 <;> first | (cases hk; done) | skip
    subst hk
    cases h3 with
    | opt_ok h3 => exact (ih hc hp hi hj ht h3 rfl e1 e2 trivial trivial).inner mem_tick rfl rfl
    | opt_none h3 =>
      rcases ih hc hp hi hj ht h3 rfl e1 e2 trivial trivial with h | h
      · cases h
      · exact .inr (h.inner mem_tick (fun v c fr h => by cases h; exact ⟨_, _, rfl⟩))
    | opt_panic h3 => exact c2.elim
  | opt_none h ih =>
    intro p r t pre x j2 l2 r2 hc hp hi hj ht h3 hk e1 e2 c1 c2
    cases j2 <;> first | (cases hk; done) | skip
    subst hk
    have hb := h.fail_back
    subst hb
    cases h3 with
    | opt_ok h3 =>
      rcases ih hc hp hi hj ht h3 rfl e1 e2 trivial trivial with h | h
      · cases h
      · exact .inr (h.inner mem_tick (fun v c fr h => by cases h))
    | opt_none h3 =>
      have hb := h3.fail_back
      subst hb
      rcases ih hc hp hi hj ht h3 rfl e1 e2 trivial trivial with h | h
      · exact .inl ⟨[], x, rfl, by rw [hc]; simp, by simp⟩
      · exact .inr (h.inner mem_tick (fun v c fr h => by cases h))
    | opt_panic h3 => exact c2.elim
  | opt_panic h ih => intro p r t pre x j2 l2 r2 hc hp hi hj ht h2 hk e1 e2 c1 c2; exact c1.elim
  | recover h ih => intro p r t pre x j2 l2 r2 hc hp hi hj; cases hj
  | throw h ih => intro p r t pre x j2 l2 r2 hc hp hi hj; cases hj
  | throw_nil => intro p r t pre x j2 l2 r2 hc hp hi hj; cases hj
  | throw_skip hne h ih => intro p r t pre x j2 l2 r2 hc hp hi hj; cases hj
  | throw_ok h ih => intro p r t pre x j2 l2 r2 hc hp hi hj; cases hj
  | throw_next h1 h2 ih1 ih2 => intro p r t pre x j2 l2 r2 hc hp hi hj; cases hj
  | throw_panic h ih => intro p r t pre x j2 l2 r2 hc hp hi hj; cases hj
  | state => intro p r t pre x j2 l2 r2 hc hp hi hj; cases hj

end Aql
