import Verif.Proofs.FormatFloat
import Verif.Spec.FormatFloat
/-! The text of a number is the shortest decimal for it, and there is only one. -/

namespace Aql

open Spec

theorem Spec.RoundsTo.neg {q x : ℚ} (h : RoundsTo q x) : RoundsTo (-q) (-x) := by
  rw [roundsTo_iff] at h ⊢
  rw [roundQ_neg, h]

theorem reads_iff {q x : ℚ} (hx : IsDouble x) : RoundsTo q x ↔ toF64 q = .fin x := by
  rw [roundsTo_iff, toF64_fin]
  exact ⟨fun h => ⟨h.symm, hx.2⟩, fun h => h.1.symm⟩

theorem Spec.IsDouble.neg {x : ℚ} (h : IsDouble x) : IsDouble (-x) := ⟨h.1.neg, by rw [abs_neg]; exact h.2⟩

theorem Spec.ShortestDecimal.neg {x : ℚ} {d e : ℤ} (h : ShortestDecimal x d e) : ShortestDecimal (-x) (-d) e := by
  have flip : ∀ {d' e' : ℤ}, RoundsTo (d' * 10 ^ e') (-x) → RoundsTo ((-d' : ℤ) * 10 ^ e') x := by
    intro d' e' h'
    have := h'.neg
    rw [neg_neg] at this
    push_cast
    rwa [neg_mul]
  have dist : ∀ d' : ℤ, |((-d' : ℤ) : ℚ) * 10 ^ e - x| = |(d' : ℚ) * 10 ^ e - -x| := by
    intro d'
    rw [← abs_neg]
    push_cast
    congr 1
    ring
  refine ⟨?_, fun d' e' h' => h.coarsest (-d') e' (flip h'), fun d' h' => ?_, fun d' hne h' he => ?_⟩
  · have := h.reads.neg
    push_cast
    rwa [neg_mul]
  · have := h.closest (-d') (flip h')
    rw [dist d'] at this
    have e2 := dist (-d)
    rw [neg_neg] at e2
    rwa [← e2]
  · have := h.tie (-d') (by omega) (flip h') (by
      rw [dist d', ← he]
      have e2 := dist (-d)
      rwa [neg_neg] at e2)
    exact this.neg

/-- The shortest decimal is unique. -/
theorem shortestDecimal_unique {x : ℚ} {d e d' e' : ℤ} (h : ShortestDecimal x d e) (h' : ShortestDecimal x d' e') :
    d = d' ∧ e = e' := by
  have he : e = e' := le_antisymm (h'.coarsest d e h.reads) (h.coarsest d' e' h'.reads)
  subst he
  refine ⟨?_, rfl⟩
  by_contra hne
  have heq := le_antisymm (h.closest d' h'.reads) (h'.closest d h.reads)
  obtain ⟨a, ha⟩ := h.tie d' (Ne.symm hne) h'.reads heq
  obtain ⟨b, hb⟩ := h'.tie d hne h.reads heq.symm
  have hp := ten_pos e
  -- the numbers are on either side of `x`, an odd number between them is closer
  have key : ∀ {d d' : ℤ}, Even d → Even d' → ShortestDecimal x d e → ShortestDecimal x d' e → d < d' →
      |(d : ℚ) * 10 ^ e - x| = |(d' : ℚ) * 10 ^ e - x| → False := by
    rintro d d' ⟨a, ha⟩ ⟨b, hb⟩ h h' hlt heq
    have l1 : (d : ℚ) + 1 ≤ d' - 1 := by
      have : d + 1 ≤ d' - 1 := by omega
      exact_mod_cast this
    have l2 : (d : ℚ) * 10 ^ e < d' * 10 ^ e := mul_lt_mul_of_pos_right (by exact_mod_cast hlt) hp
    have m1 : (d : ℚ) * 10 ^ e ≤ ((d + 1 : ℤ) : ℚ) * 10 ^ e := by
      push_cast; nlinarith
    have m2 : ((d + 1 : ℤ) : ℚ) * 10 ^ e < (d' : ℚ) * 10 ^ e := by
      push_cast; nlinarith
    have hm : RoundsTo (((d + 1 : ℤ) : ℚ) * 10 ^ e) x := by
      have r1 := (roundsTo_iff _ _).1 h.reads
      have r2 := (roundsTo_iff _ _).1 h'.reads
      rw [roundsTo_iff]
      exact le_antisymm (r1.le.trans (roundQ_mono m1)) ((roundQ_mono m2.le).trans r2.ge)
    have c := h.closest _ hm
    rcases le_total ((d : ℚ) * 10 ^ e) x with hx | hx
    · rw [abs_of_nonpos (by linarith)] at heq c
      rcases le_total (((d + 1 : ℤ) : ℚ) * 10 ^ e) x with hy | hy
      · rw [abs_of_nonpos (by linarith)] at c
        push_cast at c
        nlinarith
      · rw [abs_of_nonneg (by linarith)] at c
        rw [abs_of_nonneg (by linarith)] at heq
        linarith
    · rw [abs_of_nonneg (by linarith), abs_of_nonneg (by linarith)] at heq
      linarith
  rcases lt_or_gt_of_ne hne with hlt | hlt
  · exact key ⟨a, ha⟩ ⟨b, hb⟩ h h' hlt heq
  · exact key ⟨b, hb⟩ ⟨a, ha⟩ h' h hlt heq.symm

theorem rne_toNat {t : ℚ} (h : 0 ≤ t) : (((rne t).toNat : ℕ) : ℤ) = rne t :=
  Int.toNat_of_nonneg (rne_mono_int_ge (by exact_mod_cast h))

/-- The number of steps chosen is the closest one. -/
theorem candidate_closest {x : ℚ} (hx : 0 < x) {e : ℤ} {d : ℕ} (h : candidate x e = some d) (d' : ℤ)
    (h' : toF64 ((d' : ℚ) * 10 ^ e) = .fin x) :
    |(d : ℚ) * 10 ^ e - x| ≤ |(d' : ℚ) * 10 ^ e - x| ∧
      (d' ≠ d → |(d : ℚ) * 10 ^ e - x| = |(d' : ℚ) * 10 ^ e - x| → Even (d : ℤ)) := by
  have hself := toF64_refl h'
  obtain ⟨h1, h2⟩ := candidate_bounds hx e
  have hp := ten_pos e
  have ht : 0 ≤ x / 10 ^ e := by positivity
  have h0 : 0 ≤ ⌊x / 10 ^ e⌋ := Int.floor_nonneg.2 ht
  have hfl : ((⌊x / 10 ^ e⌋.toNat : ℕ) : ℤ) = ⌊x / 10 ^ e⌋ := Int.toNat_of_nonneg h0
  unfold candidate at h
  dsimp only at h
  split at h
  · cases h
    have hr := rne_toNat ht
    have hr' : (((rne (x / 10 ^ e)).toNat : ℕ) : ℚ) = (rne (x / 10 ^ e) : ℚ) := by exact_mod_cast hr
    have scale : ∀ y : ℚ, |y * 10 ^ e - x| = |y - x / 10 ^ e| * 10 ^ e := by
      intro y
      rw [← abs_of_pos hp, ← abs_mul, abs_of_pos hp]
      congr 1
      field_simp
    rw [hr', hr, scale, scale]
    refine ⟨mul_le_mul_of_nonneg_right (rne_dist _ _) hp.le, fun hne heq => ?_⟩
    have heq := mul_right_cancel₀ hp.ne' heq
    by_contra hodd
    have := rne_odd hodd
    have hd : |(d' : ℚ) - rne (x / 10 ^ e)| < 1 := by
      have : (d' : ℚ) - rne (x / 10 ^ e) = (d' - x / 10 ^ e) - (rne (x / 10 ^ e) - x / 10 ^ e) := by ring
      rw [this]
      refine (abs_sub _ _).trans_lt ?_
      linarith
    have : |d' - rne (x / 10 ^ e)| < 1 := by exact_mod_cast hd
    rw [Int.abs_lt_one_iff] at this
    omega
  · rename_i hb
    rw [Bool.and_eq_true, decide_eq_true_iff, decide_eq_true_iff] at hb
    split at h
    · rename_i hlo
      rw [decide_eq_true_iff] at hlo
      cases h
      have hle : d' ≤ (⌊x / 10 ^ e⌋.toNat : ℕ) := by
        by_contra hc
        refine hb ⟨hlo, toF64_between hself h' h2.le (mul_le_mul_of_nonneg_right ?_ hp.le)⟩
        have : ((⌊x / 10 ^ e⌋.toNat + 1 : ℕ) : ℤ) ≤ d' := by push_cast; omega
        exact_mod_cast this
      have hle' : (d' : ℚ) ≤ (⌊x / 10 ^ e⌋.toNat : ℕ) := by exact_mod_cast hle
      have hm := mul_le_mul_of_nonneg_right hle' hp.le
      rw [abs_of_nonpos (by linarith), abs_of_nonpos (by linarith)]
      refine ⟨by linarith, fun hne heq => absurd ?_ hne⟩
      have : (d' : ℚ) * 10 ^ e = (⌊x / 10 ^ e⌋.toNat : ℕ) * 10 ^ e := by linarith
      have := mul_right_cancel₀ hp.ne' this
      exact_mod_cast this
    · rename_i hlo
      rw [decide_eq_true_iff] at hlo
      split at h
      · rename_i hhi
        rw [decide_eq_true_iff] at hhi
        cases h
        have hle : ((⌊x / 10 ^ e⌋.toNat + 1 : ℕ) : ℤ) ≤ d' := by
          by_contra hc
          refine hlo (toF64_between h' hself (mul_le_mul_of_nonneg_right ?_ hp.le) h1)
          have : d' ≤ ((⌊x / 10 ^ e⌋.toNat : ℕ) : ℤ) := by push_cast at hc; omega
          exact_mod_cast this
        have hle' : ((⌊x / 10 ^ e⌋.toNat + 1 : ℕ) : ℚ) ≤ d' := by exact_mod_cast hle
        have hm := mul_le_mul_of_nonneg_right hle' hp.le
        rw [abs_of_nonneg (by linarith), abs_of_nonneg (by linarith)]
        refine ⟨by linarith, fun hne heq => absurd ?_ hne⟩
        have : (d' : ℚ) * 10 ^ e = ((⌊x / 10 ^ e⌋.toNat + 1 : ℕ) : ℚ) * 10 ^ e := by linarith
        have := mul_right_cancel₀ hp.ne' this
        exact_mod_cast this
      · cases h

/-- What is printed for a positive number is its shortest decimal. -/
theorem shortest_decimal {x : ℚ} (hx : 0 < x) (hd : IsDouble x) :
    ∃ (d : ℕ) (e : ℤ), shortest x 18 (Int.log 10 x + 1) = (d, e) ∧ ShortestDecimal x d e := by
  obtain ⟨d, e, h1, h2, h3⟩ := shortest_exists hx hd.1 hd.2
  refine ⟨d, e, h1, ?_, fun d' e' h => h3 d' e' ((reads_iff hd).1 h), fun d' h => ?_, fun d' hne h => ?_⟩
  · rw [reads_iff hd]
    exact_mod_cast candidate_reads hx h2
  · exact_mod_cast (candidate_closest hx h2 d' ((reads_iff hd).1 h)).1
  · exact_mod_cast (candidate_closest hx h2 d' ((reads_iff hd).1 h)).2 hne

/-! ### Digits -/

theorem lastDigits_length : ∀ k n, (lastDigits k n).length = k
  | 0, _ => rfl
  | k + 1, n => by simp [lastDigits, lastDigits_length k]

theorem lastDigits_digits : ∀ k n, AllDigits (lastDigits k n)
  | 0, _ => by simp [lastDigits, AllDigits]
  | k + 1, n => by
    intro c hc
    rw [lastDigits, List.mem_append, List.mem_singleton] at hc
    rcases hc with hc | rfl
    · exact lastDigits_digits k _ c hc
    · exact (isDig_iff _).1 (isDig_digitChar (by omega))

theorem lastDigits_value : ∀ k n, n < 10 ^ k → digitsValue (lastDigits k n) = n
  | 0, n, h => by
    rw [pow_zero] at h
    simp [lastDigits, digitsValue]
    omega
  | k + 1, n, h => by
    rw [lastDigits, digitsValue_append, lastDigits_value k (n / 10) (by rw [pow_succ] at h; omega)]
    have : digitsValue [Nat.digitChar (n % 10)] = n % 10 := by
      rw [← natOfDigits_eq]
      simpa [natOfDigits] using digVal_digitChar (by omega : n % 10 < 10)
    rw [this]
    simp
    omega

theorem allDigits_numeral (n : ℕ) : AllDigits (numeral n) := (allDigits_iff _).2 (numeral_digits n)

theorem digitsValue_numeral (n : ℕ) : digitsValue (numeral n) = n := by rw [← natOfDigits_eq, natOfDigits_numeral]

theorem numeral_clean (n : ℕ) : numeral n = ['0'] ∨ (numeral n).head? ≠ some '0' := by
  by_cases h : 1 < (numeral n).length
  · exact .inr (numeral_head n h)
  · have h1 := numeral_ne_nil n
    rcases hn : numeral n with _ | ⟨c, _ | ⟨c', t⟩⟩
    · exact absurd hn h1
    · by_cases hc : c = '0'
      · left; rw [hc]
      · right; simpa using hc
    · rw [hn] at h; simp at h

theorem plainDecimal_text {d : ℕ} {e : ℤ} (hd : 0 < d) (h10 : e < 0 → d % 10 ≠ 0) :
    PlainText (plainDecimal d e) ((d : ℚ) * 10 ^ e) := by
  have hpos : (0 : ℚ) < (d : ℚ) * 10 ^ e := mul_pos (by exact_mod_cast hd) (ten_pos e)
  rw [PlainText, if_neg (not_lt.2 hpos.le), abs_of_pos hpos]
  cases e with
  | ofNat k =>
    refine ⟨[], numeral (d * 10 ^ k), [], [], rfl, by simp [plainDecimal, numeral], allDigits_numeral _, numeral_ne_nil _,
      numeral_clean _, by simp [AllDigits], by simp, .inl ⟨rfl, rfl⟩, ?_⟩
    rw [digitsValue_numeral]
    simp [digitsValue]
  | negSucc k =>
    have h10 := h10 (Int.negSucc_lt_zero k)
    refine ⟨[], numeral (d / 10 ^ (k + 1)), _, lastDigits (k + 1) (d % 10 ^ (k + 1)), rfl, by simp [plainDecimal, numeral],
      allDigits_numeral _, numeral_ne_nil _, numeral_clean _, lastDigits_digits _ _, ?_, .inr ⟨?_, rfl⟩, ?_⟩
    · rw [lastDigits, List.getLast?_append]
      simp only [List.getLast?_singleton, Option.some_or, ne_eq, Option.some.injEq]
      have : d % 10 ^ (k + 1) % 10 = d % 10 := Nat.mod_mod_of_dvd d (dvd_pow_self 10 (by omega))
      rw [this]
      have h9 : d % 10 < 10 := by omega
      generalize d % 10 = r at h10 h9
      intro hr
      have := digVal_digitChar h9
      rw [hr] at this
      exact h10 (by rw [← this]; rfl)
    · intro hc
      have := lastDigits_length (k + 1) (d % 10 ^ (k + 1))
      rw [hc] at this
      simp at this
    · rw [digitsValue_numeral, lastDigits_length, lastDigits_value _ _ (Nat.mod_lt _ (by positivity)), zpow_negSucc]
      have hm := Nat.div_add_mod d (10 ^ (k + 1))
      have hp : (0 : ℚ) < 10 ^ (k + 1) := by positivity
      field_simp
      have : (d : ℚ) = 10 ^ (k + 1) * ((d / 10 ^ (k + 1) : ℕ) : ℚ) + ((d % 10 ^ (k + 1) : ℕ) : ℚ) := by exact_mod_cast hm.symm
      linarith

theorem plainText_neg {s : Str} {q : ℚ} (hq : 0 < q) (h : PlainText s q) : PlainText ('-' :: s) (-q) := by
  obtain ⟨m, a, r, b, h1, h2, h3⟩ := h
  rw [if_neg (not_lt.2 hq.le)] at h1
  subst h1
  refine ⟨['-'], a, r, b, by rw [if_pos (by linarith)], by rw [h2]; rfl, ?_⟩
  rwa [abs_neg]

/-- The text printed for a positive number. -/
theorem shortestText_text {x : ℚ} (hx : 0 < x) (hd : IsDouble x) :
    ∃ (d : ℕ) (e : ℤ), 0 < d ∧ ShortestDecimal x d e ∧ shortestText x = plainDecimal d e ∧
      PlainText (shortestText x) ((d : ℚ) * 10 ^ e) := by
  obtain ⟨d, e, h1, h2⟩ := shortest_decimal hx hd
  have ht : shortestText x = plainDecimal d e := by
    unfold shortestText
    rw [h1]
  have hpos : 0 < d := by
    rcases Nat.eq_zero_or_pos d with rfl | h
    · have := (roundsTo_iff _ _).1 h2.reads
      rw [Int.cast_natCast, Nat.cast_zero, zero_mul, roundQ_zero] at this
      exact absurd this hx.ne'
    · exact h
  refine ⟨d, e, hpos, h2, ht, ?_⟩
  rw [ht]
  refine plainDecimal_text hpos fun _ h10 => ?_
  have := h2.coarsest (d / 10 : ℕ) (e + 1) (by
    have hr := h2.reads
    have : ((d / 10 : ℕ) : ℚ) * 10 = d := by exact_mod_cast Nat.div_mul_cancel (Nat.dvd_of_mod_eq_zero h10)
    rw [zpow_add₀ (by norm_num), zpow_one, Int.cast_natCast]
    rw [Int.cast_natCast, ← this] at hr
    convert hr using 1
    ring)
  omega

/-- The text of a number is as it should be. -/
theorem formatFloat_text (z : Bool) (f : F64) (hf : ∀ x, f = .fin x → IsDouble x) : NumberText z f (formatFloat z f) := by
  cases f with
  | nan => exact .nan
  | inf b => cases b; exacts [.posInf, .negInf]
  | fin x =>
    have hd := hf x rfl
    unfold formatFloat
    dsimp only
    split
    · rename_i h0
      subst h0
      cases z
      · exact .zero
      · exact .negZero
    · rename_i h0
      split
      · rename_i hneg
        obtain ⟨d, e, hpos, h2, -, h3⟩ := shortestText_text (x := -x) (by linarith) hd.neg
        have h4 := h2.neg
        rw [neg_neg] at h4
        refine .number h0 h4 ?_
        have := plainText_neg (mul_pos (by exact_mod_cast hpos) (ten_pos e)) h3
        push_cast
        rwa [neg_mul]
      · rename_i hneg
        obtain ⟨d, e, hpos, h2, -, h3⟩ := shortestText_text (x := x) (lt_of_le_of_ne (not_lt.1 hneg) (Ne.symm h0)) hd
        exact .number h0 h2 (by rwa [Int.cast_natCast])

/-! ### One text for each number -/

theorem digitsValue_bound {s : Str} (h : AllDigits s) : digitsValue s < 10 ^ s.length := by
  induction s with
  | nil => simp [digitsValue]
  | cons c s ih =>
    have h1 := ih fun d hd => h d (by simp [hd])
    have h2 : c.toNat - '0'.toNat < 10 := digVal_lt ((isDig_iff c).2 (h c (by simp)))
    rw [digitsValue, List.length_cons, pow_succ]
    have : (c.toNat - '0'.toNat) * 10 ^ s.length ≤ 9 * 10 ^ s.length := Nat.mul_le_mul_right _ (by omega)
    omega

theorem digitsValue_inj : ∀ {s t : Str}, AllDigits s → AllDigits t → s.length = t.length → digitsValue s = digitsValue t → s = t
  | [], [], _, _, _, _ => rfl
  | [], _ :: _, _, _, h, _ => by simp at h
  | _ :: _, [], _, _, h, _ => by simp at h
  | c :: s, d :: t, hs, ht, hl, hv => by
    have hl : s.length = t.length := by simpa using hl
    have h1 := digitsValue_bound (s := s) fun x hx => hs x (by simp [hx])
    have h2 := digitsValue_bound (s := t) fun x hx => ht x (by simp [hx])
    have hc := (isDig_iff c).2 (hs c (by simp))
    have hd := (isDig_iff d).2 (ht d (by simp))
    rw [digitsValue, digitsValue, hl] at hv
    rw [hl] at h1
    have hdiv : ∀ a b : ℕ, b < 10 ^ t.length → (a * 10 ^ t.length + b) / 10 ^ t.length = a := by
      intro a b hb
      rw [Nat.add_comm, Nat.add_mul_div_right _ _ (by positivity), Nat.div_eq_of_lt hb, Nat.zero_add]
    have e1 : c.toNat - '0'.toNat = d.toNat - '0'.toNat := by
      rw [← hdiv (c.toNat - '0'.toNat) _ h1, hv, hdiv _ _ h2]
    have e2 : c = d := by
      rw [← digitChar_digVal hc, ← digitChar_digVal hd, digVal, digVal, e1]
    rw [e1] at hv
    rw [e2, digitsValue_inj (fun x hx => hs x (by simp [hx])) (fun x hx => ht x (by simp [hx])) hl (by omega)]

theorem digitsValue_zeros (b : Str) (k : ℕ) : digitsValue (b ++ List.replicate k '0') = digitsValue b * 10 ^ k := by
  rw [digitsValue_append, List.length_replicate]
  have : digitsValue (List.replicate k '0') = 0 := by
    induction k with
    | zero => rfl
    | succ k ih => rw [List.replicate_succ, digitsValue, ih]; simp
  omega

/-- Digits after the point, without zeros at the end, are determined by their value. -/
theorem fraction_inj {b c : Str} (hb : AllDigits b) (hc : AllDigits c) (lc : c.getLast? ≠ some '0')
    (hl : b.length ≤ c.length)
    (h : (digitsValue b : ℚ) / 10 ^ b.length = (digitsValue c : ℚ) / 10 ^ c.length) : b = c := by
  obtain ⟨k, hk⟩ := Nat.exists_eq_add_of_le hl
  have e : b ++ List.replicate k '0' = c := by
    refine digitsValue_inj ?_ hc (by simp [hk]) ?_
    · intro x hx
      rw [List.mem_append, List.mem_replicate] at hx
      rcases hx with hx | ⟨-, rfl⟩
      · exact hb x hx
      · decide
    · rw [digitsValue_zeros]
      rw [hk, pow_add] at h
      have h1 : (0 : ℚ) < 10 ^ b.length := by positivity
      have h2 : (0 : ℚ) < 10 ^ k := by positivity
      field_simp at h
      exact_mod_cast h
  cases k with
  | zero => simpa using e
  | succ k =>
    exfalso
    apply lc
    rw [← e, List.replicate_succ', ← List.append_assoc]
    simp

theorem whole_inj {a a' : Str} (ha : AllDigits a) (ha' : AllDigits a') (n : a ≠ []) (n' : a' ≠ [])
    (c : a = ['0'] ∨ a.head? ≠ some '0') (c' : a' = ['0'] ∨ a'.head? ≠ some '0') (h : digitsValue a = digitsValue a') :
    a = a' := by
  have back : ∀ {a : Str}, AllDigits a → a ≠ [] → (a = ['0'] ∨ a.head? ≠ some '0') → numeral (digitsValue a) = a := by
    intro a h1 h2 h3
    rw [← natOfDigits_eq]
    refine numeral_natOfDigits a ((allDigits_iff a).1 h1) h2 fun hl => ?_
    rcases h3 with rfl | h3
    · simp at hl
    · exact h3
  rw [← back ha n c, h, back ha' n' c']

/-- A number has only one plain text. -/
theorem plainText_unique {s t : Str} {q : ℚ} (h : PlainText s q) (h' : PlainText t q) : s = t := by
  obtain ⟨m, a, r, b, rfl, rfl, a1, a2, a3, b1, b2, b3, b4⟩ := h
  obtain ⟨m', a', r', b', rfl, rfl, a1', a2', a3', b1', b2', b3', b4'⟩ := h'
  have unit : ∀ {b : Str}, AllDigits b → (digitsValue b : ℚ) / 10 ^ b.length < 1 := by
    intro b hb
    rw [div_lt_one (by positivity)]
    exact_mod_cast digitsValue_bound hb
  have nn : ∀ b : Str, (0 : ℚ) ≤ (digitsValue b : ℚ) / 10 ^ b.length := fun b => by positivity
  have e := b4.symm.trans b4'
  have ea : digitsValue a = digitsValue a' := by
    have u1 := unit b1
    have u2 := unit b1'
    have n1 := nn b
    have n2 := nn b'
    have l1 : (digitsValue a : ℚ) < digitsValue a' + 1 := by linarith
    have l2 : (digitsValue a' : ℚ) < digitsValue a + 1 := by linarith
    have l1 : digitsValue a < digitsValue a' + 1 := by exact_mod_cast l1
    have l2 : digitsValue a' < digitsValue a + 1 := by exact_mod_cast l2
    omega
  have eb : b = b' := by
    have : (digitsValue b : ℚ) / 10 ^ b.length = (digitsValue b' : ℚ) / 10 ^ b'.length := by
      rw [ea] at e
      linarith
    rcases le_total b.length b'.length with hl | hl
    · exact fraction_inj b1 b1' b2' hl this
    · exact (fraction_inj b1' b1 b2 hl this.symm).symm
  have er : r = r' := by
    subst eb
    rcases b3 with ⟨rfl, rfl⟩ | ⟨h1, rfl⟩ <;> rcases b3' with ⟨rfl, h2⟩ | ⟨h2, rfl⟩
    · rfl
    · exact absurd rfl h2
    · exact absurd h2 h1
    · rfl
  rw [er, whole_inj a1 a1' a2 a2' a3 a3' ea]

theorem numberText_unique {z : Bool} {f : F64} {s t : Str} (h : NumberText z f s) (h' : NumberText z f t) : s = t := by
  cases h with
  | nan => cases h'; rfl
  | posInf => cases h'; rfl
  | negInf => cases h'; rfl
  | zero => cases h' with | zero => rfl | number h => exact absurd rfl h
  | negZero => cases h' with | negZero => rfl | number h => exact absurd rfl h
  | number h1 h2 h3 =>
    cases h' with
    | zero => exact absurd rfl h1
    | negZero => exact absurd rfl h1
    | number _ h2' h3' =>
      obtain ⟨rfl, rfl⟩ := shortestDecimal_unique h2 h2'
      exact plainText_unique h3 h3'

/-- Plain text is decimal text. -/
theorem plainText_dec {s : Str} {q : ℚ} (h : PlainText s q) : DecText s q := by
  obtain ⟨m, a, r, b, h1, rfl, a1, a2, a3, b1, b2, b3, b4⟩ := h
  refine ⟨m, decide (q < 0), a, r, b, [], 0, ?_, a1, ?_, .inl a2, .none, by simp, ?_⟩
  · rw [h1]
    by_cases hq : q < 0
    · rw [if_pos hq, decide_eq_true hq]; exact .minus
    · rw [if_neg hq, decide_eq_false hq]; exact .none
  · rcases b3 with ⟨rfl, rfl⟩ | ⟨-, rfl⟩
    · exact .none
    · exact .point b1
  · rw [← b4, zpow_zero, mul_one]
    by_cases hq : q < 0
    · rw [decide_eq_true hq, if_pos rfl, abs_of_neg hq]; ring
    · rw [decide_eq_false hq, if_neg (by simp), abs_of_nonneg (not_lt.1 hq)]; ring

/-- No decimal that is read as `x` has fewer digits. -/
theorem shortest_fewest {x : ℚ} {d e : ℤ} (hx : x ≠ 0) (h : ShortestDecimal x d e) (d' e' : ℤ) (n : ℕ)
    (h' : RoundsTo (d' * 10 ^ e') x) (hn : |d'| < 10 ^ n) : |d| < 10 ^ n := by
  have main : ∀ {x : ℚ} {d d' : ℤ}, 0 < x → ShortestDecimal x d e → RoundsTo (d' * 10 ^ e') x → |d'| < 10 ^ n →
      |d| < 10 ^ n := by
    intro x d d' hx h h' hn
    have r1 := (roundsTo_iff _ _).1 h.reads
    have r2 := (roundsTo_iff _ _).1 h'
    have hp := ten_pos e
    have hp' := ten_pos e'
    have sign : ∀ {c g : ℤ}, x = roundQ (c * 10 ^ g) → 0 < c := by
      intro c g hc
      by_contra hneg
      have : (c : ℚ) * 10 ^ g ≤ 0 := mul_nonpos_of_nonpos_of_nonneg (by exact_mod_cast (not_lt.1 hneg)) (ten_pos g).le
      have := roundQ_mono this
      rw [roundQ_zero, ← hc] at this
      linarith
    have hd := sign r1
    have hd' := sign r2
    rw [abs_of_pos hd'] at hn
    rw [abs_of_pos hd]
    have he := h.coarsest _ _ h'
    by_contra hc
    have hc := not_lt.1 hc
    have c1 : ((d' : ℚ)) * 10 ^ e' ≤ ((1 : ℤ) : ℚ) * 10 ^ (n + e : ℤ) := by
      rw [zpow_add₀ (by norm_num), zpow_natCast, Int.cast_one, one_mul]
      have l1 : (d' : ℚ) ≤ 10 ^ n := by exact_mod_cast hn.le
      have l2 : (10 : ℚ) ^ e' ≤ 10 ^ e := zpow_le_zpow_right₀ (by norm_num) he
      exact mul_le_mul l1 l2 hp'.le (by positivity)
    have c2 : ((1 : ℤ) : ℚ) * 10 ^ (n + e : ℤ) ≤ (d : ℚ) * 10 ^ e := by
      rw [zpow_add₀ (by norm_num), zpow_natCast, Int.cast_one, one_mul]
      exact mul_le_mul_of_nonneg_right (by exact_mod_cast hc) hp.le
    have := h.coarsest 1 (n + e) ((roundsTo_iff _ _).2
      (le_antisymm (r2.le.trans (roundQ_mono c1)) ((roundQ_mono c2).trans r1.ge)))
    have : n = 0 := by omega
    subst this
    rw [pow_zero] at hn
    omega
  rcases lt_or_gt_of_ne hx with hx | hx
  · have := main (x := -x) (d := -d) (d' := -d') (by linarith) h.neg (by
      have := h'.neg
      push_cast
      rwa [neg_mul]) (by rwa [abs_neg])
    rwa [abs_neg] at this
  · exact main hx h h' hn

/-- No more than seventeen digits are printed. -/
theorem shortest_seventeen {x : ℚ} {d e : ℤ} (hx : x ≠ 0) (hd : IsDouble x) (h : ShortestDecimal x d e) : |d| < 10 ^ 17 := by
  have main : ∀ {x : ℚ} {d : ℤ}, 0 < x → IsDouble x → ShortestDecimal x d e → |d| < 10 ^ 17 := by
    intro x d hx hd h
    have hr := (reads_iff hd).2 (seventeen_read hx hd.1 hd.2)
    set g := Int.log 10 x - 16 with hg
    have hp := ten_pos g
    have hup : x / 10 ^ g ≤ ((10 ^ 17 : ℤ) : ℚ) := by
      have a : x < (10 : ℚ) ^ (Int.log 10 x + 1) := by
        simpa using Int.lt_zpow_succ_log_self (b := 10) (by norm_num) x
      rw [div_le_iff₀ hp]
      refine a.le.trans (le_of_eq ?_)
      rw [show Int.log 10 x + 1 = 17 + g by omega, zpow_add₀ (by norm_num)]
      norm_num
    have h1 := rne_mono_int_le hup
    have h0 : 0 ≤ rne (x / 10 ^ g) := rne_mono_int_ge (by push_cast; positivity)
    rcases lt_or_eq_of_le h1 with h1 | h1
    · exact shortest_fewest hx.ne' h _ _ 17 hr (by rwa [abs_of_nonneg h0])
    · refine shortest_fewest hx.ne' h 1 (g + 17) 17 ?_ (by norm_num)
      rw [h1] at hr
      convert hr using 1
      rw [zpow_add₀ (by norm_num)]
      push_cast
      ring
  rcases lt_or_gt_of_ne hx with hx | hx
  · have := main (by linarith : 0 < -x) hd.neg h.neg
    rwa [abs_neg] at this
  · exact main hx hd h

/-- The printed number is whole exactly if the number is. -/
theorem shortest_whole {x : ℚ} {d e : ℤ} (hd : IsDouble x) (h : ShortestDecimal x d e) :
    (∃ i : ℤ, x = i) ↔ ∃ i : ℤ, (d : ℚ) * 10 ^ e = i := by
  constructor
  · rintro ⟨i, rfl⟩
    have := h.coarsest i 0 (by
      rw [zpow_zero, mul_one, roundsTo_iff]
      exact (representable_round hd.1).symm)
    obtain ⟨k, rfl⟩ := Int.eq_ofNat_of_zero_le this
    exact ⟨d * 10 ^ k, by push_cast; rfl⟩
  · rintro ⟨i, hi⟩
    have := (roundsTo_iff _ _).1 h.reads
    rw [hi] at this
    obtain ⟨m, hm⟩ := roundQ_of_int i
    exact ⟨m, this.trans hm⟩

/-- Plain text has a point exactly if the number is not whole. -/
theorem plainText_point {s : Str} {q : ℚ} (h : PlainText s q) : '.' ∈ s ↔ ¬ ∃ i : ℤ, q = i := by
  obtain ⟨m, a, r, b, h1, rfl, a1, a2, a3, b1, b2, b3, b4⟩ := h
  have hm : '.' ∉ m := by rw [h1]; split <;> decide
  have ha : '.' ∉ a := fun hc => absurd (a1 '.' hc) (by decide)
  have hs : '.' ∈ m ++ (a ++ r) ↔ '.' ∈ r := by simp [hm, ha]
  rw [hs]
  rcases b3 with ⟨rfl, rfl⟩ | ⟨hne, rfl⟩
  · simp only [List.not_mem_nil, false_iff, not_not]
    simp only [digitsValue, List.length_nil, Nat.cast_zero, pow_zero, div_one, add_zero] at b4
    rcases abs_choice q with h | h
    · exact ⟨digitsValue a, by rw [← h, b4]; simp⟩
    · exact ⟨-(digitsValue a : ℤ), by push_cast; linarith⟩
  · simp only [List.mem_cons, true_or, true_iff]
    rintro ⟨i, rfl⟩
    have hlt := digitsValue_bound b1
    have hp : (0 : ℚ) < 10 ^ b.length := by positivity
    have hu : (digitsValue b : ℚ) / 10 ^ b.length < 1 := by
      rw [div_lt_one hp]
      exact_mod_cast hlt
    have hn : (0 : ℚ) ≤ (digitsValue b : ℚ) / 10 ^ b.length := by positivity
    have hz : (digitsValue b : ℚ) / 10 ^ b.length = ((|i| - digitsValue a : ℤ) : ℚ) := by
      push_cast
      linarith
    have h0 : |i| - digitsValue a = 0 := by
      rw [hz] at hu hn
      have hu : |i| - digitsValue a < 1 := by exact_mod_cast hu
      have hn : 0 ≤ |i| - (digitsValue a : ℤ) := by exact_mod_cast hn
      omega
    rw [h0, Int.cast_zero] at hz
    have hb : b = [] := fraction_inj (b := []) (by simp [AllDigits]) b1 b2 (by simp) (by rw [hz]; simp [digitsValue]) |>.symm
    exact hne hb

/-- The text of a finite number is decimal text for it, with digits, a point and a sign only. -/
theorem formatFloat_reads (z : Bool) {x : ℚ} (hx : IsDouble x) :
    ∃ m a r q, (m = [] ∨ m = ['-']) ∧ a ≠ [] ∧ AllDigits a ∧ (r = [] ∨ ∃ b, b ≠ [] ∧ AllDigits b ∧ r = '.' :: b) ∧
      formatFloat z (.fin x) = m ++ (a ++ r) ∧ DecText (formatFloat z (.fin x)) q ∧ toF64 q = .fin x ∧
      ((∃ i : ℤ, x = i) ↔ r = []) := by
  have h := formatFloat_text z (.fin x) (by rintro _ ⟨⟩; exact hx)
  generalize formatFloat z (.fin x) = s at h
  cases h with
  | zero =>
    exact ⟨[], ['0'], [], 0, .inl rfl, by simp, by intro c hc; rw [List.mem_singleton.1 hc]; decide, .inl rfl, rfl,
      (decimalValue_iff _ _).1 (by decide +kernel), by decide +kernel, by simp; exact ⟨0, by simp⟩⟩
  | negZero =>
    exact ⟨['-'], ['0'], [], 0, .inr rfl, by simp, by intro c hc; rw [List.mem_singleton.1 hc]; decide, .inl rfl, rfl,
      (decimalValue_iff _ _).1 (by decide +kernel), by decide +kernel, by simp; exact ⟨0, by simp⟩⟩
  | @number _ _ d e _ h1 h2 h3 =>
    have hp := plainText_point h3
    have hd := plainText_dec h3
    have hw := shortest_whole hx h2
    obtain ⟨m, a, r, b, m1, rfl, a1, a2, a3, b1, b2, b3, b4⟩ := h3
    refine ⟨m, a, r, _, by rw [m1]; split <;> simp, a2, a1, ?_, rfl, hd, (reads_iff hx).1 h2.reads, ?_⟩
    · rcases b3 with ⟨rfl, -⟩ | ⟨hb, rfl⟩
      · exact .inl rfl
      · exact .inr ⟨b, hb, b1, rfl⟩
    · rw [hw]
      have hm : '.' ∉ m := by rw [m1]; split <;> decide
      have ha : '.' ∉ a := fun hc => absurd (a1 '.' hc) (by decide)
      have hs : '.' ∈ m ++ (a ++ r) ↔ '.' ∈ r := by simp [hm, ha]
      rw [hs] at hp
      rcases b3 with ⟨rfl, -⟩ | ⟨hb, rfl⟩
      · simp only [List.not_mem_nil, false_iff, not_not] at hp
        simp only [hp]
      · simp only [List.mem_cons, true_or, true_iff] at hp
        simp only [hp, reduceCtorEq]

/-- The characters of the text of a finite number. -/
theorem formatFloat_chars (z : Bool) {x : ℚ} (hx : IsDouble x) :
    ∀ c ∈ formatFloat z (.fin x), ('0' ≤ c ∧ c ≤ '9') ∨ c = '.' ∨ c = '-' := by
  obtain ⟨m, a, r, q, h1, h2, h3, h4, h5, -⟩ := formatFloat_reads z hx
  rw [h5]
  intro c hc
  simp only [List.mem_append] at hc
  rcases hc with hc | hc | hc
  · rcases h1 with rfl | rfl
    · simp at hc
    · exact .inr (.inr (by simpa using hc))
  · exact .inl (h3 c hc)
  · rcases h4 with rfl | ⟨b, -, h4, rfl⟩
    · simp at hc
    · rcases List.mem_cons.1 hc with rfl | hc
      · exact .inr (.inl rfl)
      · exact .inl (h4 c hc)

end Aql
