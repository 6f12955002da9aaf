import Mathlib.Tactic.Linarith
import Mathlib.Tactic.Positivity
import Mathlib.Tactic.Ring
import Mathlib.Tactic.FieldSimp
import Mathlib.Tactic.NormNum
import Verif.Model.Float64
import Verif.Spec.Float
/-! Lemmas about rounding and float order. -/

namespace Aql

open Spec

theorem rne_mono_int_le {q : ℚ} {k : ℤ} (h : q ≤ k) : rne q ≤ k := by
  unfold rne
  have hf : (⌊q⌋ : ℚ) ≤ q := Int.floor_le q
  have hfk : ⌊q⌋ ≤ k := by exact_mod_cast hf.trans h
  rcases lt_or_eq_of_le hfk with hlt | heq
  · dsimp only; split_ifs <;> omega
  · have : q = ⌊q⌋ := le_antisymm (by rw [heq]; exact h) hf
    have hr : q - ⌊q⌋ = 0 := by linarith
    dsimp only
    rw [hr]
    norm_num
    omega

theorem rne_mono_int_ge {q : ℚ} {k : ℤ} (h : (k : ℚ) ≤ q) : k ≤ rne q := by
  unfold rne
  have hfk : k ≤ ⌊q⌋ := Int.le_floor.2 h
  dsimp only
  split_ifs <;> omega

theorem rne_int (k : ℤ) : rne (k : ℚ) = k :=
  le_antisymm (rne_mono_int_le le_rfl) (rne_mono_int_ge le_rfl)

theorem rne_mono {p q : ℚ} (h : p ≤ q) : rne p ≤ rne q := by
  have hfl : ⌊p⌋ ≤ ⌊q⌋ := Int.floor_le_floor h
  rcases lt_or_eq_of_le hfl with hlt | heq
  · have h1 : rne p ≤ ⌊p⌋ + 1 := rne_mono_int_le (by push_cast; exact (Int.lt_floor_add_one p).le)
    have h2 : ⌊q⌋ ≤ rne q := rne_mono_int_ge (Int.floor_le q)
    omega
  · unfold rne
    dsimp only
    rw [heq]
    split_ifs <;> first | omega | (exfalso; linarith)

theorem rne_dist (q : ℚ) (k : ℤ) : |(rne q : ℚ) - q| ≤ |(k : ℚ) - q| := by
  have h1 : (⌊q⌋ : ℚ) ≤ q := Int.floor_le q
  have h2 : q < ⌊q⌋ + 1 := Int.lt_floor_add_one q
  have hk : (k : ℚ) ≤ ⌊q⌋ ∨ (⌊q⌋ : ℚ) + 1 ≤ k := by
    rcases le_or_gt k ⌊q⌋ with h | h
    · left; exact_mod_cast h
    · right; exact_mod_cast h
  have key : ∀ r : ℤ, (r = ⌊q⌋ ∧ q - ⌊q⌋ ≤ 1/2) ∨ (r = ⌊q⌋ + 1 ∧ 1/2 ≤ q - ⌊q⌋) →
      |(r : ℚ) - q| ≤ |(k : ℚ) - q| := by
    rintro r (⟨rfl, hr⟩ | ⟨rfl, hr⟩)
    · rw [abs_of_nonpos (by linarith)]
      rcases hk with hk | hk
      · rw [abs_of_nonpos (by linarith)]; linarith
      · rw [abs_of_nonneg (by linarith)]; linarith
    · push_cast
      rw [abs_of_nonneg (by linarith)]
      rcases hk with hk | hk
      · rw [abs_of_nonpos (by linarith)]; linarith
      · rw [abs_of_nonneg (by linarith)]; linarith
  apply key
  unfold rne
  dsimp only
  split_ifs with a b c
  · left; exact ⟨rfl, a.le⟩
  · right; exact ⟨rfl, b.le⟩
  · left; exact ⟨rfl, not_lt.1 b⟩
  · right; exact ⟨rfl, not_lt.1 a⟩

theorem rne_neg (q : ℚ) : rne (-q) = - rne q := by
  by_cases hi : ∃ k : ℤ, q = k
  · obtain ⟨k, rfl⟩ := hi
    rw [rne_int, show (-(k:ℚ)) = ((-k : ℤ) : ℚ) by push_cast; rfl, rne_int]
  · have hfl : ⌊-q⌋ = -⌊q⌋ - 1 := by
      have hlt : (⌊q⌋ : ℚ) < q := lt_of_le_of_ne (Int.floor_le q) (fun h => hi ⟨_, h.symm⟩)
      rw [Int.floor_eq_iff]
      push_cast
      constructor
      · have := (Int.lt_floor_add_one q); linarith
      · linarith
    unfold rne
    dsimp only
    rw [hfl]
    push_cast
    split_ifs <;> first | omega | (exfalso; linarith)

theorem pow2_pos (k : ℤ) : (0 : ℚ) < 2 ^ k := zpow_pos (by norm_num) k

theorem quantum_neg (q : ℚ) : quantum (-q) = quantum q := by simp [quantum]

theorem roundQ_neg (q : ℚ) : roundQ (-q) = - roundQ q := by
  simp only [roundQ, quantum_neg, neg_div, rne_neg]; push_cast; ring

theorem roundQ_zero : roundQ 0 = 0 := by
  have : rne (0 : ℚ) = 0 := by simpa using rne_int 0
  simp [roundQ, this]

/-- `m * 2^e` divided by a smaller power of two is an integer. -/
theorem div_pow_int (m : ℤ) {e k : ℤ} (h : k ≤ e) : ∃ n : ℤ, (m * 2 ^ e : ℚ) / 2 ^ k = n := by
  obtain ⟨j, hj⟩ := Int.eq_ofNat_of_zero_le (sub_nonneg.2 h)
  refine ⟨m * 2 ^ j, ?_⟩
  have he : e = k + j := by omega
  rw [he, zpow_add₀ (by norm_num)]
  have := (pow2_pos k).ne'
  push_cast
  field_simp
  norm_cast

theorem roundQ_le_of_le {q x : ℚ} (m e : ℤ) (hx : x = m * 2 ^ e) (hk : quantum q ≤ e) (h : q ≤ x) :
    roundQ q ≤ x := by
  obtain ⟨n, hn⟩ := div_pow_int m hk
  have hp := pow2_pos (quantum q)
  have h1 : q / 2 ^ quantum q ≤ n := by
    rw [← hn, ← hx]; exact (div_le_div_iff_of_pos_right hp).2 h
  have h2 := rne_mono_int_le h1
  have h3 : (n : ℚ) * 2 ^ quantum q = x := by rw [hx, ← hn]; field_simp
  rw [← h3]
  unfold roundQ
  exact mul_le_mul_of_nonneg_right (by exact_mod_cast h2) hp.le

theorem le_roundQ_of_le {q x : ℚ} (m e : ℤ) (hx : x = m * 2 ^ e) (hk : quantum q ≤ e) (h : x ≤ q) :
    x ≤ roundQ q := by
  have := roundQ_le_of_le (q := -q) (x := -x) (-m) e (by rw [hx]; push_cast; ring)
    (by rw [quantum_neg]; exact hk) (by linarith)
  rw [roundQ_neg] at this
  linarith

theorem roundQ_exact {q : ℚ} (m e : ℤ) (hx : q = m * 2 ^ e) (hk : quantum q ≤ e) : roundQ q = q :=
  le_antisymm (roundQ_le_of_le m e hx hk le_rfl) (le_roundQ_of_le m e hx hk le_rfl)

theorem roundQ_nonneg {q : ℚ} (h : 0 ≤ q) : 0 ≤ roundQ q :=
  le_roundQ_of_le 0 (quantum q) (by simp) le_rfl h

theorem quantum_mono {p q : ℚ} (hp : 0 < p) (h : p ≤ q) : quantum p ≤ quantum q := by
  unfold quantum
  have : Int.log 2 |p| ≤ Int.log 2 |q| := by
    rw [abs_of_pos hp, abs_of_pos (hp.trans_le h)]
    exact Int.log_mono_right hp h
  omega

theorem roundQ_mono_pos {p q : ℚ} (hp : 0 < p) (h : p ≤ q) : roundQ p ≤ roundQ q := by
  have hq : 0 < q := hp.trans_le h
  have hm := quantum_mono hp h
  rcases eq_or_lt_of_le hm with heq | hlt
  · unfold roundQ
    rw [heq]
    have hpos := pow2_pos (quantum q)
    refine mul_le_mul_of_nonneg_right ?_ hpos.le
    exact_mod_cast rne_mono ((div_le_div_iff_of_pos_right hpos).2 h)
  · have hlq : quantum q = Int.log 2 |q| - 52 := by unfold quantum at hlt ⊢; omega
    have hpl : Int.log 2 |p| < Int.log 2 |q| := by
      unfold quantum at hlt; omega
    rw [abs_of_pos hp, abs_of_pos hq] at hpl
    rw [abs_of_pos hq] at hlq
    have h1 : (2 : ℚ) ^ Int.log 2 q ≤ q := by
      simpa using Int.zpow_log_le_self (b := 2) (by norm_num) hq
    have h2 : p < (2 : ℚ) ^ (Int.log 2 p + 1) := by
      simpa using Int.lt_zpow_succ_log_self (b := 2) (by norm_num) p
    have h3 : (2 : ℚ) ^ (Int.log 2 p + 1) ≤ 2 ^ Int.log 2 q :=
      zpow_le_zpow_right₀ (by norm_num) (by omega)
    have ha : roundQ p ≤ 2 ^ Int.log 2 q :=
      roundQ_le_of_le 1 (Int.log 2 q) (by simp) (by omega) (h2.le.trans h3)
    have hb : (2 : ℚ) ^ Int.log 2 q ≤ roundQ q :=
      le_roundQ_of_le 1 (Int.log 2 q) (by simp) (by omega) h1
    exact ha.trans hb

/-- Rounding is monotone. -/
theorem roundQ_mono {p q : ℚ} (h : p ≤ q) : roundQ p ≤ roundQ q := by
  rcases lt_trichotomy p 0 with hp | hp | hp
  · rcases lt_or_ge q 0 with hq | hq
    · have := roundQ_mono_pos (p := -q) (q := -p) (by linarith) (by linarith)
      rw [roundQ_neg, roundQ_neg] at this
      linarith
    · have h1 := roundQ_nonneg (q := -p) (by linarith)
      rw [roundQ_neg] at h1
      have h2 := roundQ_nonneg hq
      linarith
  · subst hp; rw [roundQ_zero]; exact roundQ_nonneg h
  · exact roundQ_mono_pos hp h

theorem scaled_lt (q : ℚ) : |q / 2 ^ quantum q| < 2 ^ 53 := by
  have hpos := pow2_pos (quantum q)
  rw [abs_div, abs_of_pos hpos, div_lt_iff₀ hpos]
  have h2 : |q| < (2 : ℚ) ^ (Int.log 2 |q| + 1) := by
    simpa using Int.lt_zpow_succ_log_self (b := 2) (by norm_num) |q|
  refine h2.trans_le ?_
  have : ((2 : ℚ) ^ 53) * 2 ^ quantum q = 2 ^ (53 + quantum q) := by
    rw [zpow_add₀ (by norm_num)]; norm_num
  rw [this]
  apply zpow_le_zpow_right₀ (by norm_num)
  unfold quantum
  omega

theorem roundQ_representable (q : ℚ) : Representable (roundQ q) := by
  refine ⟨rne (q / 2 ^ quantum q), quantum q, ?_, ?_, rfl⟩
  · have h := scaled_lt q
    rw [abs_lt] at h
    rw [abs_le]
    constructor
    · exact rne_mono_int_ge (by push_cast; linarith [h.1])
    · exact rne_mono_int_le (by push_cast; linarith [h.2])
  · unfold quantum; omega

theorem dist_multiple {q y : ℚ} (m e : ℤ) (hy : y = m * 2 ^ e) (hk : quantum q ≤ e) :
    |roundQ q - q| ≤ |y - q| := by
  obtain ⟨n, hn⟩ := div_pow_int m hk
  have hpos := pow2_pos (quantum q)
  have hyn : y = n * 2 ^ quantum q := by rw [hy, ← hn]; field_simp
  have hd := rne_dist (q / 2 ^ quantum q) n
  have e1 : roundQ q - q = ((rne (q / 2 ^ quantum q) : ℚ) - q / 2 ^ quantum q) * 2 ^ quantum q := by
    unfold roundQ; field_simp
  have e2 : y - q = ((n : ℚ) - q / 2 ^ quantum q) * 2 ^ quantum q := by
    rw [hyn]; field_simp
  rw [e1, e2, abs_mul, abs_mul]
  exact mul_le_mul_of_nonneg_right hd (abs_nonneg _)

/-- `roundQ` yields a nearest representable number. -/
theorem roundQ_nearest (q : ℚ) : IsNearest q (roundQ q) := by
  refine ⟨roundQ_representable q, ?_⟩
  rintro y ⟨m, e, hm, he, hy⟩
  by_cases hk : quantum q ≤ e
  · exact dist_multiple m e hy hk
  · have hk := not_le.1 hk
    rcases eq_or_ne q 0 with rfl | hq0
    · rw [roundQ_zero]; simp
    have hqn : quantum q = Int.log 2 |q| - 52 := by unfold quantum at hk ⊢; omega
    have hl : (2 : ℚ) ^ Int.log 2 |q| ≤ |q| := by
      simpa using Int.zpow_log_le_self (b := 2) (by norm_num) (abs_pos.2 hq0)
    have hya : |y| ≤ (2 : ℚ) ^ Int.log 2 |q| := by
      rw [hy, abs_mul, abs_of_pos (pow2_pos e)]
      have h1 : |(m : ℚ)| ≤ 2 ^ 53 := by exact_mod_cast hm
      calc |(m : ℚ)| * 2 ^ e ≤ 2 ^ 53 * 2 ^ e := mul_le_mul_of_nonneg_right h1 (pow2_pos e).le
        _ = (2 : ℚ) ^ (53 + e) := by rw [zpow_add₀ (by norm_num)]; norm_num
        _ ≤ _ := zpow_le_zpow_right₀ (by norm_num) (by omega)
    have hy2 := abs_le.1 hya
    rcases lt_or_gt_of_ne hq0 with hneg | hpos
    · have hd := dist_multiple (q := q) (y := -(2 : ℚ) ^ Int.log 2 |q|) (-1) (Int.log 2 |q|)
        (by push_cast; ring) (by omega)
      refine hd.trans ?_
      rw [abs_of_neg hneg] at hl hy2 ⊢
      rw [abs_of_nonneg (by linarith), abs_of_nonneg (by linarith)]
      linarith
    · have hd := dist_multiple (q := q) (y := (2 : ℚ) ^ Int.log 2 |q|) 1 (Int.log 2 |q|)
        (by push_cast; ring) (by omega)
      refine hd.trans ?_
      rw [abs_of_pos hpos] at hl hy2 ⊢
      rw [abs_of_nonpos (by linarith), abs_of_nonpos (by linarith)]
      linarith

/-- Integers up to 2^53 in magnitude convert exactly. -/
theorem roundQ_small_int {n : ℤ} (h : |n| ≤ 2 ^ 53) : roundQ n = n := by
  by_contra hne
  have hn := (roundQ_nearest n).2 n ⟨n, 0, h, by norm_num, by simp⟩
  rw [sub_self, abs_zero] at hn
  exact hne (sub_eq_zero.1 (abs_eq_zero.1 (le_antisymm hn (abs_nonneg _))))

theorem F64.lt_iff (a b : F64) : a.lt b = true ↔ FLt a b := by
  rcases a with _ | (_ | _) | a <;> rcases b with _ | (_ | _) | b <;>
    simp [F64.lt, FLt, place, Before]

theorem F64.eq_iff (a b : F64) : a.eq b = true ↔ FEq a b := by
  rcases a with _ | (_ | _) | a <;> rcases b with _ | (_ | _) | b <;>
    simp [F64.eq, FEq, place, eq_comm]

theorem F64.le_iff (a b : F64) : a.le b = true ↔ FLe a b := by
  simp [F64.le, FLe, F64.lt_iff, F64.eq_iff]

end Aql
