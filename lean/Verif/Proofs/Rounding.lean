import Verif.Proofs.Float
/-! Round-half-even: `roundQ` is the unique number `RoundsTo` describes. -/

namespace Aql

open Spec

theorem Spec.EvenSignificand.neg {x : ℚ} (h : EvenSignificand x) : EvenSignificand (-x) := by
  obtain ⟨m, e, h1, h2, h3, rfl⟩ := h
  exact ⟨-m, e, by rwa [abs_neg], h2.neg, h3, by push_cast; ring⟩

theorem Spec.Representable.neg {x : ℚ} (h : Representable x) : Representable (-x) := by
  obtain ⟨m, e, h1, h3, rfl⟩ := h
  exact ⟨-m, e, by rwa [abs_neg], h3, by push_cast; ring⟩

theorem Spec.IsNearest.neg {q x : ℚ} (h : IsNearest q x) : IsNearest (-q) (-x) := by
  refine ⟨h.1.neg, fun y hy => ?_⟩
  have := h.2 (-y) hy.neg
  rw [← abs_neg (-x - -q), ← abs_neg (y - -q)]
  convert this using 2 <;> ring

/-- An even significand can be chosen below 2^53. -/
theorem evenSig_lt {x : ℚ} (h : EvenSignificand x) :
    ∃ m e : ℤ, |m| < 2 ^ 53 ∧ Even m ∧ -1074 ≤ e ∧ x = m * 2 ^ e := by
  obtain ⟨m, e, h1, h2, h3, rfl⟩ := h
  rcases lt_or_eq_of_le h1 with h | h
  · exact ⟨m, e, h, h2, h3, rfl⟩
  · rcases abs_choice m with hm | hm
    · refine ⟨2 ^ 52, e + 1, by norm_num, ⟨2 ^ 51, by norm_num⟩, by omega, ?_⟩
      have : m = 2 ^ 53 := by omega
      rw [this, zpow_add₀ (by norm_num)]; push_cast; ring
    · refine ⟨-2 ^ 52, e + 1, by norm_num, ⟨-2 ^ 51, by norm_num⟩, by omega, ?_⟩
      have : m = -2 ^ 53 := by omega
      rw [this, zpow_add₀ (by norm_num)]; push_cast; ring

/-- No representable number lies strictly between two nearest ones. -/
theorem nearest_gap {q x y z : ℚ} (hx : IsNearest q x) (hy : IsNearest q y) (hz : Representable z)
    (h1 : x < z) (h2 : z < y) : False := by
  have e := le_antisymm (hx.2 y hy.1) (hy.2 x hx.1)
  have hz' := hx.2 z hz
  have hz2 := hy.2 z hz
  rcases le_total z q with h | h
  · rw [abs_of_nonpos (by linarith : x - q ≤ 0), abs_of_nonpos (by linarith : z - q ≤ 0)] at hz'
    linarith
  · rw [abs_of_nonneg (by linarith : 0 ≤ y - q), abs_of_nonneg (by linarith : 0 ≤ z - q)] at hz2
    linarith

theorem even_nearest_lt {q x y : ℚ} (hx : IsNearest q x) (hy : IsNearest q y)
    (ex : EvenSignificand x) (ey : EvenSignificand y) (h : x < y) : False := by
  obtain ⟨m, e, hm, em, he, rfl⟩ := evenSig_lt ex
  obtain ⟨n, g, hn, en, hg, rfl⟩ := evenSig_lt ey
  have hpe := pow2_pos e
  have hpg := pow2_pos g
  rw [abs_lt] at hm hn
  -- one step up from x does not go past y, one step down from y does not go past x
  have s1 : (n : ℚ) * 2 ^ g ≤ m * 2 ^ e + 2 ^ e := by
    by_contra hc
    exact nearest_gap hx hy ⟨m + 1, e, abs_le.2 ⟨by omega, by omega⟩, he, rfl⟩
      (by push_cast; linarith) (by push_cast; linarith)
  have s2 : (n : ℚ) * 2 ^ g - 2 ^ g ≤ m * 2 ^ e := by
    by_contra hc
    exact nearest_gap hx hy ⟨n - 1, g, abs_le.2 ⟨by omega, by omega⟩, hg, rfl⟩
      (by push_cast; linarith) (by push_cast; linarith)
  obtain ⟨m', rfl⟩ := em
  obtain ⟨n', rfl⟩ := en
  rcases le_total e g with hle | hle
  · obtain ⟨j, hj⟩ := Int.eq_ofNat_of_zero_le (sub_nonneg.2 hle)
    have : g = e + j := by omega
    subst this
    rw [zpow_add₀ (by norm_num), zpow_natCast] at s1 s2 h
    have k1 : (n' + n') * 2 ^ j ≤ (m' + m') + 1 := by
      have : ((n' + n' : ℤ) : ℚ) * 2 ^ j * 2 ^ e ≤ (((m' + m' : ℤ) : ℚ) + 1) * 2 ^ e := by linarith
      have := le_of_mul_le_mul_right this hpe
      exact_mod_cast this
    have k2 : (m' + m') < (n' + n') * 2 ^ j := by
      have : ((m' + m' : ℤ) : ℚ) * 2 ^ e < ((n' + n' : ℤ) : ℚ) * 2 ^ j * 2 ^ e := by linarith
      have := lt_of_mul_lt_mul_right this hpe.le
      exact_mod_cast this
    have : (n' + n') * 2 ^ j = 2 * (n' * 2 ^ j) := by ring
    omega
  · obtain ⟨j, hj⟩ := Int.eq_ofNat_of_zero_le (sub_nonneg.2 hle)
    have : e = g + j := by omega
    subst this
    rw [zpow_add₀ (by norm_num), zpow_natCast] at s1 s2 h
    have k1 : (n' + n') - 1 ≤ (m' + m') * 2 ^ j := by
      have : (((n' + n' : ℤ) : ℚ) - 1) * 2 ^ g ≤ ((m' + m' : ℤ) : ℚ) * 2 ^ j * 2 ^ g := by linarith
      have := le_of_mul_le_mul_right this hpg
      exact_mod_cast this
    have k2 : (m' + m') * 2 ^ j < n' + n' := by
      have : ((m' + m' : ℤ) : ℚ) * 2 ^ j * 2 ^ g < ((n' + n' : ℤ) : ℚ) * 2 ^ g := by linarith
      have := lt_of_mul_lt_mul_right this hpg.le
      exact_mod_cast this
    have : (m' + m') * 2 ^ j = 2 * (m' * 2 ^ j) := by ring
    omega

/-- The specification determines the rounded number. -/
theorem Spec.RoundsTo.unique {q x y : ℚ} (hx : RoundsTo q x) (hy : RoundsTo q y) : x = y := by
  by_contra hne
  have ex := hx.2 y hy.1 (Ne.symm hne)
  have ey := hy.2 x hx.1 hne
  rcases lt_or_gt_of_ne hne with h | h
  · exact even_nearest_lt hx.1 hy.1 ex ey h
  · exact even_nearest_lt hy.1 hx.1 ey ex h

/-- A rounding that is not even is closer than half a step. -/
theorem rne_odd {t : ℚ} (h : ¬ Even (rne t)) : |(rne t : ℚ) - t| < 1 / 2 := by
  have h1 : (⌊t⌋ : ℚ) ≤ t := Int.floor_le t
  have h2 : t < ⌊t⌋ + 1 := Int.lt_floor_add_one t
  unfold rne at h ⊢
  dsimp only at h ⊢
  by_cases a : t - ⌊t⌋ < 1 / 2
  · rw [if_pos a]; rw [abs_of_nonpos (by linarith)]; linarith
  · rw [if_neg a] at h ⊢
    by_cases b : t - ⌊t⌋ > 1 / 2
    · rw [if_pos b]; push_cast; rw [abs_of_nonneg (by linarith)]; linarith
    · rw [if_neg b] at h
      exfalso
      apply h
      split
      · rw [Int.even_iff]; assumption
      · rw [Int.even_iff]; omega

theorem roundQ_even_pos {q y : ℚ} (hq : 0 < q) (hy : IsNearest q y) (hne : y ≠ roundQ q) :
    Even (rne (q / 2 ^ quantum q)) := by
  by_contra hodd
  have hd := rne_odd hodd
  have hpk := pow2_pos (quantum q)
  have hn := roundQ_nearest q
  have e := le_antisymm (hn.2 y hy.1) (hy.2 _ hn.1)
  set k := quantum q with hk
  set r := rne (q / 2 ^ k) with hr
  have hx : roundQ q = r * 2 ^ k := rfl
  have hxq : |roundQ q - q| < 2 ^ k / 2 := by
    have : roundQ q - q = ((r : ℚ) - q / 2 ^ k) * 2 ^ k := by rw [hx]; field_simp
    rw [this, abs_mul, abs_of_pos hpk]
    nlinarith
  have hyx : |y - roundQ q| < 2 ^ k := by
    have h1 : |y - roundQ q| ≤ |y - q| + |roundQ q - q| := by
      have : y - roundQ q = (y - q) - (roundQ q - q) := by ring
      rw [this]; exact abs_sub _ _
    linarith
  obtain ⟨m, g, hm, hg, rfl⟩ := hy.1
  rcases le_or_gt k g with hkg | hkg
  · obtain ⟨n, hn'⟩ := div_pow_int m hkg
    have hyn : (m : ℚ) * 2 ^ g = n * 2 ^ k := by rw [← hn']; field_simp
    rw [hyn, hx, ← sub_mul, abs_mul, abs_of_pos hpk] at hyx
    have : |(n : ℚ) - r| < 1 := by nlinarith
    have : |n - r| < 1 := by exact_mod_cast this
    rw [Int.abs_lt_one_iff] at this
    apply hne
    rw [hyn, hx, show n = r by omega]
  · have hk2 : k = Int.log 2 |q| - 52 := by
      rw [hk]; unfold quantum; rw [hk] at hkg; unfold quantum at hkg; omega
    have hlow : (2 : ℚ) ^ (52 + k) ≤ q := by
      have := Int.zpow_log_le_self (b := 2) (by norm_num) (abs_pos.2 hq.ne')
      rw [abs_of_pos hq] at this hk2
      rw [hk2, show 52 + (Int.log 2 q - 52) = Int.log 2 q by ring]
      exact_mod_cast this
    have hr52 : (2 : ℤ) ^ 52 ≤ r := by
      apply rne_mono_int_ge
      rw [le_div_iff₀ hpk]
      push_cast
      rw [zpow_add₀ (by norm_num)] at hlow
      exact_mod_cast hlow
    have hr53 : (2 : ℤ) ^ 52 + 1 ≤ r := by
      rcases lt_or_eq_of_le hr52 with h | h
      · omega
      · exfalso; apply hodd; rw [← h]; exact ⟨2 ^ 51, by norm_num⟩
    have hyle : (m : ℚ) * 2 ^ g ≤ 2 ^ 52 * 2 ^ k := by
      have h1 : (m : ℚ) ≤ 2 ^ 53 := by exact_mod_cast (abs_le.1 hm).2
      have h2 : (2 : ℚ) ^ 53 * 2 ^ g ≤ 2 ^ 52 * 2 ^ k := by
        have : (2 : ℚ) ^ g ≤ 2 ^ (k - 1) := zpow_le_zpow_right₀ (by norm_num) (by omega)
        rw [zpow_sub₀ (by norm_num), zpow_one] at this
        linarith
      have := pow2_pos g
      nlinarith
    have hxge : ((2 : ℚ) ^ 52 + 1) * 2 ^ k ≤ r * 2 ^ k := by
      have : ((2 : ℚ) ^ 52 + 1) ≤ r := by exact_mod_cast hr53
      nlinarith
    rw [hx, abs_lt] at hyx
    linarith [hyx.1]

theorem rne_abs_le {q : ℚ} : |rne (q / 2 ^ quantum q)| ≤ 2 ^ 53 := by
  have h := scaled_lt q
  rw [abs_lt] at h
  rw [abs_le]
  exact ⟨rne_mono_int_ge (by push_cast; linarith [h.1]), rne_mono_int_le (by push_cast; linarith [h.2])⟩

/-- `roundQ` rounds to nearest, ties to even. -/
theorem roundQ_roundsTo (q : ℚ) : RoundsTo q (roundQ q) := by
  refine ⟨roundQ_nearest q, fun y hy hne => ?_⟩
  refine ⟨_, _, rne_abs_le (q := q), ?_, le_max_right _ _, rfl⟩
  rcases lt_trichotomy q 0 with h | h | h
  · have := roundQ_even_pos (q := -q) (y := -y) (by linarith) hy.neg
      (by rw [roundQ_neg]; exact fun h => hne (neg_injective h))
    rw [quantum_neg, neg_div, rne_neg] at this
    exact even_neg.1 this
  · subst h
    have : rne (0 : ℚ) = 0 := by simpa using rne_int 0
    simp [this]
  · exact roundQ_even_pos h hy hne

theorem roundsTo_iff (q x : ℚ) : RoundsTo q x ↔ x = roundQ q :=
  ⟨fun h => h.unique (roundQ_roundsTo q), fun h => h ▸ roundQ_roundsTo q⟩

theorem roundQ_two63 : roundQ ((2 ^ 63 : ℤ) : ℚ) = 2 ^ 63 := by
  have : ((2 ^ 63 : ℤ) : ℚ) = ((1 : ℤ) : ℚ) * 2 ^ (63 : ℤ) := by norm_num
  rw [roundQ_exact 1 63 this]
  · norm_num
  · unfold quantum
    have : Int.log 2 |((2 ^ 63 : ℤ) : ℚ)| = 63 := by
      rw [abs_of_pos (by norm_num)]
      have := Int.log_zpow (R := ℚ) (b := 2) (by norm_num) 63
      rw [← this]; norm_num
    rw [this]; norm_num

/-- Values of 64-bit size do not overflow. -/
theorem toF64_small {q : ℚ} (h : |q| ≤ 2 ^ 63) : toF64 q = .fin (roundQ q) := by
  have hb : |roundQ q| ≤ 2 ^ 63 := by
    rw [abs_le] at h ⊢
    constructor
    · have := roundQ_mono (p := -((2 ^ 63 : ℤ) : ℚ)) (q := q) (by push_cast; exact h.1)
      rw [roundQ_neg, roundQ_two63] at this; exact this
    · have := roundQ_mono (p := q) (q := ((2 ^ 63 : ℤ) : ℚ)) (by push_cast; exact h.2)
      rw [roundQ_two63] at this; exact this
  unfold toF64
  dsimp only
  rw [if_neg]
  rw [not_le]
  refine hb.trans_lt ?_
  have : (2 : ℚ) ^ (63 : ℤ) < 2 ^ (1024 : ℤ) := zpow_lt_zpow_right₀ (by norm_num) (by norm_num)
  rwa [show (63 : ℤ) = ((63 : ℕ) : ℤ) by norm_num, zpow_natCast] at this

/-- Integers of 64-bit size do not overflow. -/
theorem toF64_int {i : ℤ} (h : |i| ≤ 2 ^ 63) : toF64 (i : ℚ) = .fin (roundQ i) :=
  toF64_small (by exact_mod_cast h)

/-- Rounding a number between 0 and 1 moves it by at most 2^-54. -/
theorem roundQ_unit_error {q : ℚ} (h0 : 0 ≤ q) (h1 : q ≤ 1) : |roundQ q - q| ≤ 1 / 2 ^ 54 := by
  have hn := (roundQ_nearest q).2 ((⌊q * 2 ^ 53 + 1 / 2⌋ : ℤ) * 2 ^ (-53 : ℤ)) ⟨_, -53, ?_, by norm_num, rfl⟩
  · refine hn.trans ?_
    have a := Int.floor_le (q * 2 ^ 53 + 1 / 2)
    have b := Int.lt_floor_add_one (q * 2 ^ 53 + 1 / 2)
    generalize ((⌊q * 2 ^ 53 + 1 / 2⌋ : ℤ) : ℚ) = n at a b
    have e : (2 : ℚ) ^ (-53 : ℤ) = 1 / 2 ^ 53 := by norm_num
    rw [e, abs_le]
    constructor
    · have : n * (1 / 2 ^ 53) - q = (n - q * 2 ^ 53) / 2 ^ 53 := by field_simp
      rw [this, neg_le_iff_add_nonneg, show (1 / 2 ^ 54 : ℚ) = (1 / 2) / 2 ^ 53 by norm_num, ← add_div]
      apply div_nonneg <;> [linarith; norm_num]
    · have : n * (1 / 2 ^ 53) - q = (n - q * 2 ^ 53) / 2 ^ 53 := by field_simp
      rw [this, show (1 / 2 ^ 54 : ℚ) = (1 / 2) / 2 ^ 53 by norm_num]
      apply div_le_div_of_nonneg_right <;> [linarith; norm_num]
  · rw [abs_le]
    constructor
    · have : (0 : ℤ) ≤ ⌊q * 2 ^ 53 + 1 / 2⌋ := Int.floor_nonneg.2 (by positivity)
      linarith
    · rw [← Int.lt_add_one_iff, Int.floor_lt]
      push_cast
      have : q * 2 ^ 53 ≤ 2 ^ 53 := by nlinarith
      linarith

end Aql
