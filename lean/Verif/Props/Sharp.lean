import Verif.Props.Sampler
import Verif.Props.Fields
import Verif.Props.Format
import Verif.Props.Numbers
import Verif.Props.Validation
import Verif.Props.Grammar
/-!
Exact forms of claims that are false in general: C11, C13, C29, C47, C53, C58.
-/

namespace Aql

open Spec

/-! ### C58 -/

/-- A string, a number or an object: the kinds for which an example is kept. -/
def Spec.KeepsExample : Json → Prop
  | .str _ => True
  | .num _ => True
  | .obj _ => True
  | _ => False

theorem keepsExample_iff (b : Bool) (v : Json) : KeepsExample v ↔ fieldKind b v < 6 := by
  cases v <;> cases b <;> simp [KeepsExample, fieldKind]

theorem markOne_bare {fs : FieldStats} {b : Bool} {v : Json} {ex : Str} (hb : fs.Bare)
    (h : fs.sampled % 1000 = 0 → ¬ KeepsExample v) :
    ∃ fs', fs.markOne b v ex = .ok fs' ∧ fs'.Bare ∧ fs'.sampled = fs.sampled := by
  have hk : fieldKind b v < fs.types.length := by rw [hb.1]; exact fieldKind_lt b v
  unfold FieldStats.markOne
  dsimp only
  rw [List.getElem?_eq_getElem hk]
  dsimp only
  rw [if_neg (by rw [← keepsExample_iff b v]; tauto)]
  refine ⟨_, rfl, ⟨by simp [hb.1], fun e he => ?_⟩, rfl⟩
  rcases List.mem_or_eq_of_mem_set he with h | rfl
  · exact hb.2 e h
  · have := hb.2 _ (List.getElem_mem hk)
    exact this

theorem markOne_nil {fs : FieldStats} {b : Bool} {v : Json} {ex : Str} (hb : fs.Bare)
    (h : fs.sampled % 1000 = 0) (hv : KeepsExample v) : fs.markOne b v ex = .error .nilDeref := by
  have hk : fieldKind b v < fs.types.length := by rw [hb.1]; exact fieldKind_lt b v
  unfold FieldStats.markOne
  dsimp only
  rw [List.getElem?_eq_getElem hk]
  dsimp only
  rw [if_pos ⟨(keepsExample_iff b v).1 hv, h⟩, hb.2 _ (List.getElem_mem hk)]

theorem mark_bare (E : Env) (b : Bool) (vs : List Json) {fs : FieldStats} (hb : fs.Bare) :
    ((fs.sampled % 1000 = 0 → ∀ v ∈ vs, ¬ KeepsExample v) →
      ∃ fs', vs.foldlM (fun fs v => fs.markOne b v (exampleText E v)) fs = (.ok fs' : GoM FieldStats) ∧
        fs'.Bare ∧ fs'.sampled = fs.sampled) ∧
    (¬ (fs.sampled % 1000 = 0 → ∀ v ∈ vs, ¬ KeepsExample v) →
      vs.foldlM (fun fs v => fs.markOne b v (exampleText E v)) fs = (.error .nilDeref : GoM FieldStats)) := by
  induction vs generalizing fs with
  | nil => exact ⟨fun _ => ⟨fs, rfl, hb, rfl⟩, fun h => absurd (by simp) h⟩
  | cons v vs ih =>
    by_cases h1 : fs.sampled % 1000 = 0 ∧ KeepsExample v
    · refine ⟨fun h => absurd h1.2 (h h1.1 v (by simp)), fun _ => ?_⟩
      rw [List.foldlM_cons, markOne_nil hb h1.1 h1.2]
      rfl
    · obtain ⟨f1, e1, l1, s1⟩ := markOne_bare (b := b) (v := v) (ex := exampleText E v) hb
        (fun h h' => h1 ⟨h, h'⟩)
      obtain ⟨ihok, ihbad⟩ := ih l1
      rw [s1] at ihok ihbad
      rw [List.foldlM_cons, e1]
      constructor
      · intro h
        exact ihok fun h0 w hw => h h0 w (by simp [hw])
      · intro h
        apply ihbad
        intro h'
        apply h
        intro h0 w hw
        rcases List.mem_cons.1 hw with rfl | hw
        · exact fun hk => h1 ⟨h0, hk⟩
        · exact h' h0 w hw

theorem markAll_bare (E : Env) (samples : List (List Json × Int × Bool)) {fs : FieldStats} (hb : fs.Bare) :
    ((∀ i vs m b, samples[i]? = some (vs, m, b) → 1000 ∣ fs.sampled + (i + 1) → ∀ v ∈ vs, ¬ KeepsExample v) →
      ∃ fs', markAll E fs samples = .ok fs' ∧ fs'.sampled = fs.sampled + samples.length) ∧
    (¬ (∀ i vs m b, samples[i]? = some (vs, m, b) → 1000 ∣ fs.sampled + (i + 1) → ∀ v ∈ vs, ¬ KeepsExample v) →
      markAll E fs samples = .error .nilDeref) := by
  induction samples generalizing fs with
  | nil => exact ⟨fun _ => ⟨fs, rfl, rfl⟩, fun h => absurd (by simp) h⟩
  | cons s ss ih =>
    obtain ⟨hok, hbad⟩ := mark_bare E s.2.2 s.1 (fs := { fs with sampled := fs.sampled + 1 }) hb
    dsimp only at hok hbad
    have hm : ∀ r, ({ fs with sampled := fs.sampled + 1 } : FieldStats) = r →
        markAll E fs (s :: ss) =
          (s.1.foldlM (fun (fs : FieldStats) v => fs.markOne s.2.2 v (exampleText E v)) r : GoM FieldStats).bind fun f => markAll E f ss := by
      rintro r rfl
      unfold markAll FieldStats.mark
      rw [List.foldlM_cons]
      rfl
    rw [hm _ rfl]
    by_cases h1 : (fs.sampled + 1) % 1000 = 0 → ∀ v ∈ s.1, ¬ KeepsExample v
    · obtain ⟨f1, e1, l1, s1⟩ := hok h1
      rw [e1]
      obtain ⟨ihok, ihbad⟩ := ih l1
      rw [s1] at ihok ihbad
      have hiff : (∀ i vs m b, (s :: ss)[i]? = some (vs, m, b) → 1000 ∣ fs.sampled + (i + 1) →
            ∀ v ∈ vs, ¬ KeepsExample v) ↔
          ∀ i vs m b, ss[i]? = some (vs, m, b) → 1000 ∣ fs.sampled + 1 + (i + 1) → ∀ v ∈ vs, ¬ KeepsExample v := by
        constructor
        · intro h i vs m b hi hd
          exact h (i + 1) vs m b (by simpa using hi) (by omega)
        · intro h i vs m b hi hd
          cases i with
          | zero =>
            simp only [List.getElem?_cons_zero, Option.some.injEq] at hi
            subst hi
            exact h1 (by omega)
          | succ i => exact h i vs m b (by simpa using hi) (by omega)
      rw [hiff]
      constructor
      · intro h
        obtain ⟨f2, e2, s2⟩ := ihok h
        exact ⟨f2, e2, by rw [s2, List.length_cons]; omega⟩
      · exact ihbad
    · rw [hbad h1]
      constructor
      · intro h
        exact absurd (fun h0 => h 0 s.1 s.2.1 s.2.2 (by simp) (by omega)) h1
      · intro _
        rfl

/-- **C58, exactly.** Marking samples panics (with a nil pointer) if and only if some sample whose number is
a multiple of 1000 has a string, a number or an object. -/
theorem C58_mark_exact (E : Env) (x : Option (List Str)) (samples : List (List Json × Int × Bool)) :
    ((∀ i vs m b, samples[i]? = some (vs, m, b) → 1000 ∣ i + 1 → ∀ v ∈ vs, ¬ KeepsExample v) →
      ∃ fs, markAll E (newFieldStats x) samples = .ok fs ∧ fs.sampled = samples.length) ∧
    (¬ (∀ i vs m b, samples[i]? = some (vs, m, b) → 1000 ∣ i + 1 → ∀ v ∈ vs, ¬ KeepsExample v) →
      markAll E (newFieldStats x) samples = .error .nilDeref) := by
  have := markAll_bare E samples (newFieldStats_bare x)
  have h0 : (newFieldStats x).sampled = 0 := rfl
  rw [h0] at this
  simpa only [Nat.zero_add] using this

-- 1000 samples of nulls and booleans
example : ∃ fs, markAll testEnv (newFieldStats none) (List.replicate 1000 ([.null, .bool true], -1, false)) = .ok fs := by
  obtain ⟨fs, h, -⟩ := (C58_mark_exact testEnv none (List.replicate 1000 ([.null, .bool true], -1, false))).1 (by
    intro i vs m b hi _ v hv
    rw [List.getElem?_replicate] at hi
    split at hi
    · simp only [Option.some.injEq, Prod.mk.injEq] at hi
      obtain ⟨rfl, -, -⟩ := hi
      simp only [List.mem_cons, List.not_mem_nil, or_false] at hv
      rcases hv with rfl | rfl <;> simp [KeepsExample]
    · cases hi)
  exact ⟨fs, h⟩

/-! ### C53 -/

/-- **C53, exactly.** With a width below the length of the query, the window lies in the query, contains the
token and is no wider than allowed if and only if the token has fewer than `w - 1` characters, or it has
`w - 1` or `w` and starts at least `w` characters before the end. -/
theorem C53_window_exact (n w st en : Int) (h0 : 0 ≤ st) (h1 : st ≤ en) (h2 : en ≤ n) (hw : w < n) :
    (0 ≤ (findCenter n w st en).1 ∧ (findCenter n w st en).1 ≤ st ∧ en ≤ (findCenter n w st en).2 ∧
      (findCenter n w st en).2 ≤ n ∧ (findCenter n w st en).2 - (findCenter n w st en).1 ≤ w) ↔
    (en - st < w - 1 ∨ (en - st ≤ w ∧ st + w ≤ n)) := by
  by_cases hs : en - st < w - 1
  · exact ⟨fun _ => .inl hs, fun _ => C53_window_partial n w st en h0 h1 h2 hw hs⟩
  · unfold findCenter
    dsimp only
    rw [if_neg (by omega), if_pos (by omega)]
    dsimp only
    omega

/-! ### C29 -/

section
variable {E : Env} {f : List Str} {pos : Pos} {m : Matcher} {d : Json}

theorem roundQ_eq_small {n : ℤ} (hn : |n| < 2 ^ 53) {k : ℤ} (h : roundQ (k : ℚ) = n) : k = n := by
  have hb := abs_lt.1 hn
  rcases le_or_gt |k| (2 ^ 53) with hk | hk
  · rw [roundQ_small_int hk] at h
    exact_mod_cast h
  · exfalso
    have h53 : roundQ ((2 ^ 53 : ℤ) : ℚ) = ((2 ^ 53 : ℤ) : ℚ) := roundQ_small_int (by norm_num)
    have h53' : roundQ ((-2 ^ 53 : ℤ) : ℚ) = ((-2 ^ 53 : ℤ) : ℚ) := roundQ_small_int (by norm_num)
    rcases lt_abs.1 hk with hk | hk
    · have : ((2 ^ 53 : ℤ) : ℚ) ≤ (k : ℚ) := by exact_mod_cast hk.le
      have := roundQ_mono this
      rw [h53, h] at this
      have : (2 ^ 53 : ℤ) ≤ n := by exact_mod_cast this
      omega
    · have : (k : ℚ) ≤ ((-2 ^ 53 : ℤ) : ℚ) := by
        have : k ≤ -2 ^ 53 := by omega
        exact_mod_cast this
      have := roundQ_mono this
      rw [h53', h] at this
      have : n ≤ (-2 ^ 53 : ℤ) := by exact_mod_cast this
      omega

/-- **C29.** For an integer literal below 2^53 in magnitude, equality with numbers of a document that are
integers of any size is equality of integers. -/
theorem C29_small_literal {n : ℤ} {sv : Str} {p : Pos} (hn : |n| < 2 ^ 53)
    (h : Ready E (.expr .EQ f [.int n sv p] pos) m) (hp : Plain d f)
    (hd : ∀ s, ScalarUnder E d f s → ∃ raw k, s = .num raw ∧ DecText raw ((k : ℤ) : ℚ)) :
    Accepts E m d ↔ ∃ raw, ScalarUnder E d f (.num raw) ∧ DecText raw (n : ℚ) := by
  have hr : RoundsTo (n : ℚ) (n : ℚ) := by rw [roundsTo_iff, roundQ_small_int hn.le]
  have hn63 : |n| ≤ 2 ^ 63 := hn.le.trans (by norm_num)
  rw [C28_equal (.inl rfl) h hp]
  constructor
  · rintro ⟨s, x, c, hs, hx, hc, he⟩
    obtain ⟨raw, k, rfl, hk⟩ := hd s hs
    refine ⟨raw, hs, ?_⟩
    rw [numberOf_decimal hk _ (.inl rfl)] at hx
    obtain ⟨y, hy, -, rfl⟩ := hx
    rw [C28_integer_literal hn63] at hc
    obtain ⟨z, hz, rfl⟩ := hc
    rw [hz.unique hr] at he
    obtain ⟨w, h1, h2⟩ := he
    simp only [place, Option.some.injEq] at h1 h2
    rw [← h1] at h2
    simp only [Prod.mk.injEq, true_and] at h2
    rw [roundsTo_iff] at hy
    rw [hy] at h2
    rw [← roundQ_eq_small hn h2.symm]
    exact hk
  · rintro ⟨raw, hs, hraw⟩
    refine ⟨.num raw, .fin n, .fin n, hs, ?_, ?_, ⟨_, rfl, rfl⟩⟩
    · rw [numberOf_decimal hraw _ (.inl rfl)]
      exact ⟨n, hr, lt_big (by exact_mod_cast hn.le), rfl⟩
    · rw [C28_integer_literal hn63]
      exact ⟨n, hr, rfl⟩

end

/-! ### C13 -/

theorem notLe_iff {l r : F64} (hl : l ≠ .nan) (hr : r ≠ .nan) : ¬ FLe r l ↔ FLt l r := by
  rw [← F64.le_iff, ← F64.lt_iff]
  cases l with
  | nan => exact absurd rfl hl
  | inf s => cases r with
    | nan => exact absurd rfl hr
    | inf s' => cases s <;> cases s' <;> simp [F64.le, F64.lt, F64.eq]
    | fin q => cases s <;> simp [F64.le, F64.lt, F64.eq]
  | fin p => cases r with
    | nan => exact absurd rfl hr
    | inf s' => cases s' <;> simp [F64.le, F64.lt, F64.eq]
    | fin q =>
      simp only [F64.le, F64.lt, F64.eq, Bool.or_eq_true, decide_eq_true_eq]
      constructor
      · intro h
        push Not at h
        exact lt_of_le_of_ne h.1 (fun h' => h.2 (by simp [h']))
      · intro h
        push Not
        exact ⟨h.le, fun h' => by subst h'; exact lt_irrefl _ h⟩

theorem numLit_not_nan {v : Val} {l : F64} (hv : NotNaN v) (h : NumLit v l) : l ≠ .nan := by
  cases h with
  | int => exact toF64_ne_nan _
  | float => intro h; subst h; exact hv _ _ rfl

theorem operand_cases {v : Val} (h : OperandOk .BET v) :
    (∃ l, NumLit v l ∧ typeOf v ≠ .time) ∨ (typeOf v = .time ∧ ∀ l, ¬ NumLit v l) := by
  cases v with
  | int => exact .inl ⟨_, .int, by simp [Val.type]⟩
  | float => exact .inl ⟨_, .float, by simp [Val.type]⟩
  | time => exact .inr ⟨rfl, fun l h => by cases h⟩
  | _ => simp [OperandOk, Val.type] at h

/-- **C13, exactly.** A between comparison of two literals (none is NaN in a query text) is accepted if and
only if the operands are numbers or datetimes, are printed differently, and are either of one kind and in
order, or a negative number followed by a datetime. -/
theorem C13_between_exact (E : Env) (f : List Str) (a b : Val) (pos : Pos) (hn : NotNaN a ∧ NotNaN b) :
    opValidator E (.expr .BET f [a, b] pos) = .ok none ↔
      OperandOk .BET a ∧ OperandOk .BET b ∧ a.toStr E ≠ b.toStr E ∧
        (OneKind a b ∨ ((∃ l, NumLit a l ∧ FLt l (.fin 0)) ∧ typeOf b = .time)) := by
  obtain ⟨r, hr, hi⟩ := C12_validator_decides_typing E .BET f [a, b] pos
  rw [hr]
  have : ((Except.ok r : GoM (Option PErr)) = .ok none) ↔ ExprOk E .BET [a, b] := by
    rw [← hi]
    constructor
    · intro h; exact Except.ok.inj h
    · rintro rfl; rfl
  have hzero : (F64.fin 0) ≠ .nan := by simp
  have key : OperandOk .BET a → OperandOk .BET b → (BetweenOk a b ↔
      (OneKind a b ∨ ((∃ l, NumLit a l ∧ FLt l (.fin 0)) ∧ typeOf b = .time))) := by
    intro ha hb
    unfold BetweenOk OneKind
    rcases operand_cases ha with ⟨l, hl, hty⟩ | ⟨hty, hno⟩
    · have hl' := numLit_not_nan hn.1 hl
      have hfirst : ¬ ∃ sa ta da pa sb tb db pb, a = .time sa ta da pa ∧ b = .time sb tb db pb ∧ ta < tb := by
        rintro ⟨sa, ta, da, pa, _, _, _, _, rfl, -⟩
        exact hty rfl
      rcases operand_cases hb with ⟨r, hr, hbt⟩ | ⟨hbt, hbno⟩
      · have hr' := numLit_not_nan hn.2 hr
        constructor
        · rintro (h | ⟨-, l1, r1, h1, h2, h3⟩)
          · exact absurd h hfirst
          · have : l1 = l := by
              rcases h1 with h1 | ⟨h1, -⟩
              · exact h1.unique hl
              · exact absurd hl (h1 _)
            subst this
            have : r1 = r := by
              rcases h2 with h2 | ⟨h2, -⟩
              · exact h2.unique hr
              · exact absurd hr (h2 _)
            subst this
            exact .inl (.inl ⟨l1, r1, hl, hr, (notLe_iff hl' hr').1 h3⟩)
        · rintro ((⟨l1, r1, h1, h2, h3⟩ | h) | ⟨-, h⟩)
          · rw [h1.unique hl, h2.unique hr] at h3
            exact .inr ⟨hty, l, r, .inl hl, .inl hr, (notLe_iff hl' hr').2 h3⟩
          · exact absurd h hfirst
          · exact absurd h hbt
      · constructor
        · rintro (h | ⟨-, l1, r1, h1, h2, h3⟩)
          · exact absurd h hfirst
          · have : l1 = l := by
              rcases h1 with h1 | ⟨h1, -⟩
              · exact h1.unique hl
              · exact absurd hl (h1 _)
            subst this
            have : r1 = .fin 0 := by
              rcases h2 with h2 | ⟨-, h2⟩
              · exact absurd h2 (hbno _)
              · exact h2
            subst this
            exact .inr ⟨⟨l1, hl, (notLe_iff hl' hzero).1 h3⟩, hbt⟩
        · rintro ((⟨l1, r1, h1, h2, h3⟩ | h) | ⟨⟨l1, h1, h2⟩, -⟩)
          · exact absurd h2 (hbno _)
          · exact absurd h hfirst
          · rw [h1.unique hl] at h2
            exact .inr ⟨hty, l, _, .inl hl, .inr ⟨hbno, rfl⟩, (notLe_iff hl' hzero).2 h2⟩
    · constructor
      · rintro (h | ⟨h, -⟩)
        · exact .inl (.inr h)
        · exact absurd hty h
      · rintro ((⟨l1, r1, h1, -⟩ | h) | ⟨⟨l1, h1, -⟩, -⟩)
        · exact absurd h1 (hno _)
        · exact .inl h
        · exact absurd h1 (hno _)
  rw [this]
  constructor
  · intro h
    have ha := h.types a (by simp)
    have hb := h.types b (by simp)
    refine ⟨ha, hb, ?_, (key ha hb).1 (h.between a b rfl rfl)⟩
    have := h.distinct
    simpa using this
  · rintro ⟨ha, hb, hne, hk⟩
    refine ⟨rfl, ?_, by simpa using hne, by simp, ?_⟩
    · intro v hv
      simp only [List.mem_cons, List.not_mem_nil, or_false] at hv
      rcases hv with rfl | rfl
      · exact ha
      · exact hb
    · rintro a' b' - h
      simp only [List.cons.injEq, and_true] at h
      obtain ⟨rfl, rfl⟩ := h
      exact (key ha hb).2 hk

/-! ### C11 -/

theorem unescapeSlash_append (s t : Str) (h : (∀ w, s ≠ w ++ ['\\']) ∨ t.head? ≠ some '/') :
    unescapeSlash (s ++ t) = unescapeSlash s ++ unescapeSlash t := by
  induction s using unescapeSlash.induct with
  | case1 s ih =>
    simp only [List.cons_append, unescapeSlash]
    rw [ih (h.imp (fun h w hw => h ('\\' :: '/' :: w) (by simp [hw])) id)]
  | case2 c s hne ih =>
    have hs : unescapeSlash (c :: s) = c :: unescapeSlash s := by
      rw [unescapeSlash]
      exact hne
    rw [hs, List.cons_append, List.cons_append,
      ← ih (h.imp (fun h w hw => h (c :: w) (by simp [hw])) id)]
    rw [unescapeSlash]
    intro r hc hr
    subst hc
    cases s with
    | nil =>
      rw [List.nil_append] at hr
      rcases h with h | h
      · exact h [] rfl
      · rw [hr] at h; exact h rfl
    | cons d s =>
      simp only [List.cons_append, List.cons.injEq] at hr
      obtain ⟨rfl, -⟩ := hr
      exact hne s rfl rfl
  | case3 => rfl

theorem trimSlash_ends (u : Str) : trimSlash ('/' :: (u ++ ['/'])) = trimSlash u := by
  have h := trimmed_iff.2 (rfl : trimSlash u = trimSlash u)
  obtain ⟨i, j, h1, h2, h3⟩ := h
  apply trimmed_iff.1
  refine ⟨i + 1, j + 1, ?_, h2, h3⟩
  rw [List.replicate_succ, List.replicate_succ']
  nth_rw 1 [h1]
  simp

theorem trimSlash_eq_self {u : Str} : trimSlash u = u ↔ u.head? ≠ some '/' ∧ u.getLast? ≠ some '/' := by
  rw [← trimmed_iff]
  constructor
  · rintro ⟨i, j, -, h⟩
    exact h
  · intro h
    exact ⟨0, 0, by simp, h⟩

theorem trimSlash_length (u : Str) : (trimSlash u).length ≤ u.length := by
  obtain ⟨i, j, h1, -⟩ := trimmed_iff.2 (rfl : trimSlash u = trimSlash u)
  have := congrArg List.length h1
  simp at this
  omega

/-- A literal that begins with a slash is a regular expression. -/
theorem lit_slash {E : Env} {pre s : Str} {v : Val} (hv : Lit E pre ('/' :: (s ++ ['/'])) v) :
    ∃ p, v = .regex (unescapeSlash ('/' :: (s ++ ['/']))) (trimSlash (unescapeSlash ('/' :: (s ++ ['/'])))) p ∧
      reCompiles E (trimSlash (unescapeSlash ('/' :: (s ++ ['/'])))) = true := by
  have start : ∀ c : Char, ∀ t : Str, '0' ≤ c ∧ c ≤ '9' → '/' :: (s ++ ['/']) ≠ c :: t := by
    intro c t hc h
    have := (List.cons.inj h).1
    subst this
    exact absurd hc (by decide)
  have digits : ∀ a t : Str, AllDigits a → a ≠ [] → '/' :: (s ++ ['/']) ≠ a ++ t := by
    intro a t ha hne h
    cases a with
    | nil => exact hne rfl
    | cons c a => exact start c (a ++ t) (ha c (by simp)) h
  have hnum : ∀ n t, '/' :: (s ++ ['/']) ≠ numeral n ++ t := by
    intro n t
    refine digits _ t (fun c hc => ?_) (numeral_ne_nil n)
    simpa [isDig] using numeral_digits n c hc
  have hdate : ∀ dt x t, DateText dt x → '/' :: (s ++ ['/']) ≠ dt ++ t := by
    rintro dt x t ⟨a, b, c, ha, hl, -, -, -, -, rfl, -⟩ h
    refine digits a _ ha (by rintro rfl; simp at hl) (h.trans (by rw [List.append_assoc]))
  cases hv with
  | string _ h => simp at h
  | @regex s' U src t hb ht hU htr hc =>
    rw [unescaped_iff] at hU
    rw [trimmed_iff] at htr
    subst hU htr
    exact ⟨_, rfl, hc⟩
  | stamp h =>
    obtain ⟨dt, x, n, ct, secs, ft, ns, zt, off, hd, -, -, -, -, -, h, -⟩ := h
    exact absurd h (hdate _ _ _ hd)
  | day h =>
    obtain ⟨x, hx, -⟩ := h
    exact absurd (List.append_nil _).symm (hdate _ _ [] hx)
  | address h =>
    obtain ⟨w, x, y, z, -, -, -, -, h, -⟩ := h
    exact absurd h (hnum _ _)
  | block ha _ ht =>
    obtain ⟨w, x, y, z, -, -, -, -, h, -⟩ := ha
    subst h
    exact absurd (ht.trans (List.append_assoc _ _ _)) (hnum _ _)
  | float hm ha hd _ _ ht =>
    rcases hm with rfl | rfl
    · exact absurd (ht.trans (List.nil_append _)) (digits _ _ hd ha)
    · simp at ht
  | int hm ha hd ht =>
    rcases hm with rfl | rfl
    · exact absurd ((ht.trans (List.nil_append _)).trans (List.append_nil _).symm) (digits _ _ hd ha)
    · simp at ht

/-- **C11, exactly.** Let `u` be the body `s` of a regular expression literal with every `\/` replaced by `/`.
The pattern that is compiled is `u` if and only if `u` neither begins nor ends with a slash and the body does
not end with a backslash. -/
theorem C11_source_exact (E : Env) (pre s u : Str) (hu : Unescaped s u) (v : Val)
    (hv : Lit E pre ('/' :: (s ++ ['/'])) v) : ∃ sv src p, v = .regex sv src p ∧
      (src = u ↔ u.head? ≠ some '/' ∧ u.getLast? ≠ some '/' ∧ ∀ w, s ≠ w ++ ['\\']) := by
  obtain ⟨p, rfl, -⟩ := lit_slash hv
  refine ⟨_, _, _, rfl, ?_⟩
  rw [unescaped_iff] at hu
  subst hu
  have h1 : unescapeSlash ('/' :: (s ++ ['/'])) = '/' :: unescapeSlash (s ++ ['/']) := by
    rw [unescapeSlash]
    intro r h
    exact absurd h (by decide)
  rw [h1]
  by_cases hw : ∃ w, s = w ++ ['\\']
  · obtain ⟨w, rfl⟩ := hw
    have h2 : unescapeSlash (w ++ ['\\']) = unescapeSlash w ++ ['\\'] := by
      rw [unescapeSlash_append _ _ (.inr (by simp))]
      rfl
    have h3 : unescapeSlash (w ++ ['\\'] ++ ['/']) = unescapeSlash w ++ ['/'] := by
      rw [List.append_assoc, unescapeSlash_append _ _ (.inr (by simp))]
      rfl
    rw [h3, trimSlash_ends, h2]
    constructor
    · intro h
      have := congrArg List.length h
      have h4 := trimSlash_length (unescapeSlash w)
      simp at this
      omega
    · rintro ⟨-, -, h⟩
      exact absurd rfl (h w)
  · rw [unescapeSlash_append _ _ (.inl (fun w h => hw ⟨w, h⟩))]
    show trimSlash ('/' :: (unescapeSlash s ++ ['/'])) = _ ↔ _
    rw [trimSlash_ends, trimSlash_eq_self]
    constructor
    · rintro ⟨h1, h2⟩
      exact ⟨h1, h2, fun w h => hw ⟨w, h⟩⟩
    · rintro ⟨h1, h2, -⟩
      exact ⟨h1, h2⟩

/-- **C11, refuted.** The literal `/x\\\\/`, a pattern for `x` and a backslash, is compiled from `x\\`, the body
without its last character. A library that rejects `x\\`, as Go's does, thereby rejects the literal. -/
theorem C11_backslash_refuted (E : Env) (pre : Str) (v : Val) (h : Lit E pre "/x\\\\/".toList v) :
    RegexBody "x\\\\".toList ∧ Unescaped "x\\\\".toList "x\\\\".toList ∧
      (∃ sv p, v = .regex sv "x\\".toList p) ∧ reCompiles E "x\\".toList = true := by
  obtain ⟨p, h1, h2⟩ := lit_slash (s := "x\\\\".toList) h
  refine ⟨.plain (by decide) (by decide) (by decide) (.escape (by decide) .nil), unescaped_iff.2 rfl, ⟨_, p, h1⟩, h2⟩

/-- An environment in which patterns that end with a backslash do not compile. -/
def strictEnv : Env := { testEnv with reOk := fun s => s.getLast? != some '\\' }

-- so the query is rejected there, while `/x\\\\y/` is accepted with its body as pattern
example : (match newMatcher strictEnv (utf8 "a:/x\\\\/".toList) with | some (.ok (.error _)) => true | _ => false) = true ∧
    regexSource strictEnv "a:/x\\\\y/".toList = some "x\\\\y".toList := by
  decide +kernel

/-! ### C47 -/

/-- A value that is sampled without an error at this depth: whatever is opened is complete. -/
inductive Spec.Intact (maxDepth : Int) : Int → SJson → Prop
  | deep {depth v} : maxDepth < depth → Intact maxDepth depth v
  | scalar {depth} : Intact maxDepth depth .scalar
  | obj {depth ms} : (∀ kv ∈ ms, Intact maxDepth (depth + 1) kv.2) → Intact maxDepth depth (.obj ms true)
  | arr {depth items} : (∀ v ∈ items, isList v = false → Intact maxDepth depth v) →
      Intact maxDepth depth (.arr items true)

theorem sound_obj {m d : Int} {ms : List (Str × SJson)} {closed : Bool} (hd : ¬ d > m) :
    Intact m d (.obj ms closed) ↔ closed = true ∧ ∀ kv ∈ ms, Intact m (d + 1) kv.2 := by
  constructor
  · intro h
    cases h with
    | deep h => exact absurd h hd
    | obj h => exact ⟨rfl, h⟩
  · rintro ⟨rfl, h⟩
    exact .obj h

theorem sound_arr {m d : Int} {items : List SJson} {closed : Bool} (hd : ¬ d > m) :
    Intact m d (.arr items closed) ↔ closed = true ∧ ∀ v ∈ items, v.isArr = false → Intact m d v := by
  constructor
  · intro h
    cases h with
    | deep h => exact absurd h hd
    | arr h => exact ⟨rfl, h⟩
  · rintro ⟨rfl, h⟩
    exact .arr h

mutual

theorem sampleV_sound (m : Int) : ∀ (v : SJson) (path : Str) (d : Int) (M : KeyMap), path ≠ [] →
    ∃ M' e, sampleV m v path d (some M) = .ok (some M', e) ∧ (e = false ↔ Intact m d v)
  | .obj ms closed, path, d, M, hp => by
    rw [sampleV]
    split
    · rename_i h; exact ⟨M, _, rfl, by simp [Intact.deep (v := .obj ms closed) h]⟩
    · rename_i h
      rw [sound_obj h]
      exact sampleMembers_sound m ms closed path d M
  | .arr items closed, path, d, M, hp => by
    rw [sampleV]
    split
    · rename_i h; exact ⟨M, _, rfl, by simp [Intact.deep (v := .arr items closed) h]⟩
    · rename_i h
      rw [sound_arr h]
      obtain ⟨M', e, h1, h2⟩ := sampleItems_sound m items closed path d M false (fun v hv ha => .inl hp)
      exact ⟨M', e, h1, by rw [h2]; simp⟩
  | .unknown, path, d, M, hp => by
    rw [sampleV]
    refine ⟨M, _, rfl, ?_⟩
    constructor
    · intro h
      exact .deep (by simpa using h)
    · intro h
      cases h with
      | deep h => simpa using h
  | .scalar, path, d, M, hp => by
    rw [sampleV]
    split
    · exact ⟨M, _, rfl, by simp [Intact.scalar]⟩
    · cases path with
      | nil => exact absurd rfl hp
      | cons c k => exact ⟨_, _, rfl, by simp [Intact.scalar]⟩

theorem sampleMembers_sound (m : Int) : ∀ (ms : List (Str × SJson)) (closed : Bool) (path : Str)
    (d : Int) (M : KeyMap), ∃ M' e, sampleMembers m ms closed path d (some M) = .ok (some M', e) ∧
      (e = false ↔ closed = true ∧ ∀ kv ∈ ms, Intact m (d + 1) kv.2)
  | [], closed, path, d, M => by rw [sampleMembers]; exact ⟨M, _, rfl, by simp⟩
  | (k, v) :: ms, closed, path, d, M => by
    rw [sampleMembers]
    obtain ⟨M', e, h, hs⟩ := sampleV_sound m v (path ++ keyPart k) (d + 1) M (by simp [keyPart_eq])
    rw [h]
    cases e
    · obtain ⟨M2, e2, h2, hs2⟩ := sampleMembers_sound m ms closed path d M'
      refine ⟨M2, e2, h2, ?_⟩
      rw [hs2]
      simp [hs.1 rfl]
    · refine ⟨M', true, rfl, ?_⟩
      simp only [Bool.true_eq_false, false_iff] at hs ⊢
      rintro ⟨-, h⟩
      exact hs (h (k, v) (by simp))

theorem sampleItems_sound (m : Int) : ∀ (vs : List SJson) (closed : Bool) (path : Str)
    (d : Int) (M : KeyMap) (aerr : Bool), (∀ v ∈ vs, v.isArr = false → path ≠ [] ∨ v ≠ .scalar) →
    ∃ M' e, sampleItems m vs closed path d (some M) aerr = .ok (some M', e) ∧
      (e = false ↔ aerr = false ∧ closed = true ∧ ∀ v ∈ vs, v.isArr = false → Intact m d v)
  | [], closed, path, d, M, aerr, _ => by
    rw [sampleItems]
    exact ⟨M, _, rfl, by cases closed <;> cases aerr <;> simp⟩
  | v :: vs, closed, path, d, M, aerr, hv => by
    rw [sampleItems]
    have hvs : ∀ v ∈ vs, v.isArr = false → path ≠ [] ∨ v ≠ .scalar :=
      fun x hx => hv x (List.mem_cons_of_mem _ hx)
    split
    · rename_i ha
      obtain ⟨M', e, h, hs⟩ := sampleItems_sound m vs closed path d M aerr hvs
      exact ⟨M', e, h, by rw [hs]; simp [ha]⟩
    · split
      · rename_i ha
        obtain ⟨M', e, h, hs⟩ := sampleItems_sound m vs closed path d M aerr hvs
        exact ⟨M', e, h, by rw [hs]; simp [ha]⟩
      · rename_i hae ha
        have : ∃ M' e, sampleV m v path d (some M) = .ok (some M', e) ∧ (e = false ↔ Intact m d v) := by
          rcases hv v (by simp) (by simpa using ha) with hp | hs
          · exact sampleV_sound m v path d M hp
          · match v, hs, ha with
            | .obj ms c, _, _ =>
              rw [sampleV]
              split
              · rename_i h; exact ⟨M, _, rfl, by simp [Intact.deep (v := .obj ms c) h]⟩
              · rename_i h
                rw [sound_obj h]
                exact sampleMembers_sound m ms c path d M
            | .unknown, _, _ =>
              rw [sampleV]
              refine ⟨M, _, rfl, ?_⟩
              constructor
              · intro h
                exact .deep (by simpa using h)
              · intro h
                cases h with
                | deep h => simpa using h
            | .arr _ _, _, ha => exact absurd rfl ha
            | .scalar, hs, _ => exact absurd rfl hs
        obtain ⟨M', e, h, hs⟩ := this
        rw [h]
        obtain ⟨M2, e2, h2, hs2⟩ := sampleItems_sound m vs closed path d M' e hvs
        refine ⟨M2, e2, h2, ?_⟩
        rw [hs2, hs]
        have hae' : aerr = false := by simpa using hae
        have ha' : v.isArr = false := by simpa using ha
        simp only [hae', true_and, List.mem_cons, forall_eq_or_imp, ha', forall_const]
        tauto

end

/-- Elements before the first scalar of a top-level array are passed without an error. -/
theorem sampleItems_prefix (m : Int) (before rest : List SJson) (closed : Bool) (d : Int) (M : KeyMap)
    (hs : ∀ v ∈ before, v.isArr = false → v ≠ .scalar ∧ Intact m d v) :
    ∃ M', sampleItems m (before ++ rest) closed [] d (some M) false =
      sampleItems m rest closed [] d (some M') false := by
  induction before generalizing M with
  | nil => exact ⟨M, rfl⟩
  | cons v vs ih =>
    have hvs := fun x hx => hs x (List.mem_cons_of_mem v hx)
    rw [List.cons_append, sampleItems, if_neg (by simp)]
    split
    · exact ih M hvs
    · rename_i ha
      have ha' : v.isArr = false := by simpa using ha
      obtain ⟨hne, hsd⟩ := hs v (by simp) ha'
      have hone : ∃ M', sampleV m v [] d (some M) = .ok (some M', false) := by
        have hi := sampleItems_sound m [v] true [] d M false (fun x hx _ => .inr (by
          rw [List.mem_singleton] at hx; subst hx; exact hne))
        obtain ⟨M', e, h1, h2⟩ := hi
        have he : e = false := h2.2 ⟨rfl, rfl, fun x hx _ => by
          rw [List.mem_singleton] at hx; subst hx; exact hsd⟩
        subst he
        rw [sampleItems, if_neg (by simp), if_neg ha] at h1
        rcases hv : sampleV m v [] d (some M) with p | ⟨k, b⟩
        · rw [hv] at h1; cases h1
        · rw [hv] at h1
          simp only [sampleItems, Bool.not_true, Bool.false_or, Except.ok.injEq, Prod.mk.injEq] at h1
          obtain ⟨rfl, rfl⟩ := h1
          exact ⟨M', rfl⟩
      obtain ⟨M', hM⟩ := hone
      rw [hM]
      exact ih M' hvs

/-- Once an element gave an error, the rest is not looked at. -/
theorem sampleItems_after_error (m : Int) (vs : List SJson) (closed : Bool) (path : Str) (d : Int)
    (keys : Option KeyMap) : sampleItems m vs closed path d keys true = .ok (keys, true) := by
  induction vs with
  | nil => simp [sampleItems]
  | cons v vs ih => rw [sampleItems, if_pos rfl, ih]

/-- **C47, exactly.** A sampler that still has its map panics on a document if and only if the document has
no bytes, or it is an array with a scalar element before which every element that is not an array is sampled
without an error. -/
theorem C47_panics_exact {s : Sampler} (hk : s.keys ≠ none) (d : SampleIn) :
    (∃ p, s.sample d = .error p) ↔
      d = .empty ∨ ∃ before after closed, d = .array (before ++ .scalar :: after) closed ∧ 0 ≤ s.maxDepth ∧
        ∀ v ∈ before, isList v = false → Intact s.maxDepth 0 v := by
  simp only [isList_eq]
  obtain ⟨m, keys, t⟩ := s
  cases keys with
  | none => exact absurd rfl hk
  | some M =>
    constructor
    · rintro ⟨p, h⟩
      cases d with
      | empty => exact .inl rfl
      | rejected => cases h
      | object ms closed =>
        obtain ⟨s', e, h', -⟩ := C47_panics_partial (s := ⟨m, some M, t⟩) hk (d := .object ms closed) trivial
        rw [h'] at h; cases h
      | array items closed =>
        right
        by_cases hm : 0 ≤ m
        swap
        · simp [Sampler.sample, sampleV, show (0 : Int) > m by omega, Sampler.finish] at h
        have hm' : ¬ (0 : Int) > m := by omega
        simp only [Sampler.sample, sampleV, if_neg hm'] at h
        -- look for the first scalar that is reached
        suffices hs : ∃ before after, items = before ++ .scalar :: after ∧
            ∀ v ∈ before, v.isArr = false → Intact m 0 v by
          obtain ⟨b, a, rfl, hb⟩ := hs
          exact ⟨b, a, closed, rfl, hm, hb⟩
        have hpan : ∃ q, sampleItems m items closed [] 0 (some M) false = .error q := by
          rcases hr : sampleItems m items closed [] 0 (some M) false with q | ⟨k, e⟩
          · exact ⟨q, rfl⟩
          · rw [hr] at h
            cases e <;> cases h
        clear h hk
        induction items generalizing M with
        | nil => obtain ⟨q, hq⟩ := hpan; cases hq
        | cons v vs ih =>
          by_cases hv : v = .scalar
          · subst hv
            exact ⟨[], vs, rfl, by simp⟩
          · obtain ⟨q, hq⟩ := hpan
            rw [sampleItems, if_neg (by simp)] at hq
            split at hq
            · rename_i ha
              obtain ⟨b, a, rfl, hb⟩ := ih M ⟨q, hq⟩
              refine ⟨v :: b, a, rfl, fun x hx hxa => ?_⟩
              rcases List.mem_cons.1 hx with rfl | hx
              · rw [hxa] at ha; cases ha
              · exact hb x hx hxa
            · rename_i ha
              obtain ⟨M', e, h1, h2⟩ := sampleItems_sound m [v] true [] 0 M false (fun x hx _ => .inr (by
                rw [List.mem_singleton] at hx; subst hx; exact hv))
              rw [sampleItems, if_neg (by simp), if_neg ha] at h1
              rcases hV : sampleV m v [] 0 (some M) with p | ⟨k, b⟩
              · rw [hV] at h1; cases h1
              · rw [hV] at h1 hq
                simp only [sampleItems, Bool.not_true, Bool.false_or, Except.ok.injEq, Prod.mk.injEq] at h1
                obtain ⟨rfl, rfl⟩ := h1
                cases b with
                | true =>
                  dsimp only at hq
                  rw [sampleItems_after_error] at hq
                  cases hq
                | false =>
                  obtain ⟨b, a, rfl, hb⟩ := ih M' ⟨q, hq⟩
                  refine ⟨v :: b, a, rfl, fun x hx hxa => ?_⟩
                  rcases List.mem_cons.1 hx with rfl | hx
                  · exact (h2.1 rfl).2.2 x (by simp) hxa
                  · exact hb x hx hxa
    · rintro (rfl | ⟨before, after, closed, rfl, hm, hb⟩)
      · exact ⟨_, rfl⟩
      · have hm' : ¬ (0 : Int) > m := by simp only at hm; omega
        -- take the first scalar
        obtain ⟨b, a, he, hb'⟩ : ∃ b a, before ++ SJson.scalar :: after = b ++ .scalar :: a ∧
            ∀ v ∈ b, v.isArr = false → v ≠ .scalar ∧ Intact m 0 v := by
          clear hk
          induction before with
          | nil => exact ⟨[], after, rfl, by simp⟩
          | cons v vs ih =>
            by_cases hv : v = .scalar
            · subst hv
              exact ⟨[], vs ++ .scalar :: after, rfl, by simp⟩
            · obtain ⟨b, a, he, hb'⟩ := ih fun x hx => hb x (by simp [hx])
              refine ⟨v :: b, a, by simp [he], fun x hx hxa => ?_⟩
              rcases List.mem_cons.1 hx with rfl | hx
              · exact ⟨hv, hb x (by simp) hxa⟩
              · exact hb' x hx hxa
        obtain ⟨M', hM⟩ := sampleItems_prefix m b (.scalar :: a) closed 0 M hb'
        refine ⟨.outOfRange, ?_⟩
        simp only [Sampler.sample, sampleV, if_neg hm', he]
        rw [hM]
        simp [sampleItems, SJson.isArr, sampleV, hm', record, Sampler.finish]

-- an object, an array and then a scalar; the same after an unreadable value
example : (∃ p, (Sampler.new 3).sample (.array [.obj [] true, .arr [] true, .scalar] true) = .error p) ∧
    ¬ ∃ p, (Sampler.new 3).sample (.array [.unknown, .scalar] true) = .error p := by
  refine ⟨⟨.outOfRange, rfl⟩, ?_⟩
  rintro ⟨p, h⟩
  cases h

end Aql
