import Verif.Model.FormatFloat
import Verif.Proofs.Rounding
import Verif.Proofs.Number
import Verif.Proofs.Digits
/-! Lemmas about the printing of numbers. -/

namespace Aql

open Spec

theorem ten_pos (k : ℤ) : (0 : ℚ) < 10 ^ k := zpow_pos (by norm_num) k

theorem representable_round {x : ℚ} (h : Representable x) : roundQ x = x := by
  have hn := (roundQ_nearest x).2 x h
  rw [sub_self, abs_zero] at hn
  exact sub_eq_zero.1 (abs_eq_zero.1 (le_antisymm hn (abs_nonneg _)))

theorem toF64_fin {q x : ℚ} : toF64 q = .fin x ↔ roundQ q = x ∧ |x| < 2 ^ (1024 : ℤ) := by
  unfold toF64
  dsimp only
  split
  · rename_i h
    constructor
    · intro h; cases h
    · rintro ⟨rfl, h'⟩; exact absurd h (not_le.2 h')
  · rename_i h
    constructor
    · intro h'; cases h'; exact ⟨rfl, not_le.1 h⟩
    · rintro ⟨rfl, -⟩; rfl

/-- A binary64 number: representable and below the largest power. -/
theorem toF64_isDouble {q x : ℚ} (h : toF64 q = .fin x) : Representable x ∧ |x| < 2 ^ (1024 : ℤ) := by
  obtain ⟨rfl, h⟩ := toF64_fin.1 h
  exact ⟨roundQ_representable q, h⟩

theorem toF64_self {x : ℚ} (h : Representable x) (hb : |x| < 2 ^ (1024 : ℤ)) : toF64 x = .fin x :=
  toF64_fin.2 ⟨representable_round h, hb⟩

theorem toF64_neg {q x : ℚ} (h : toF64 q = .fin x) : toF64 (-q) = .fin (-x) := by
  obtain ⟨h1, h2⟩ := toF64_fin.1 h
  exact toF64_fin.2 ⟨by rw [roundQ_neg, h1], by rwa [abs_neg]⟩

/-- What lies between two numbers that are rounded to `x` is rounded to `x`. -/
theorem toF64_between {p q r x : ℚ} (hp : toF64 p = .fin x) (hr : toF64 r = .fin x) (h1 : p ≤ q) (h2 : q ≤ r) :
    toF64 q = .fin x := by
  rw [toF64_fin] at hp hr ⊢
  exact ⟨le_antisymm ((roundQ_mono h2).trans hr.1.le) (hp.1.ge.trans (roundQ_mono h1)), hp.2⟩

/-- Rounding leads from an integer to an integer. -/
theorem roundQ_of_int (n : ℤ) : ∃ m : ℤ, roundQ n = m := by
  rcases le_total 0 (quantum n) with h | h
  · obtain ⟨k, hk⟩ := Int.eq_ofNat_of_zero_le h
    refine ⟨rne (n / 2 ^ quantum (n : ℚ)) * 2 ^ k, ?_⟩
    rw [roundQ, hk]
    push_cast
    rfl
  · exact ⟨n, roundQ_exact n 0 (by simp) h⟩

/-- Two numbers with room for no other number between them. -/
theorem close_eq {x z : ℚ} (hx : 0 < x) (hx' : roundQ x = x) (hz : Representable z)
    (h : |z - x| < 2 ^ quantum x / 2) : z = x := by
  obtain ⟨m, g, hm, hg, rfl⟩ := hz
  set k := quantum x with hk
  have hpk := pow2_pos k
  have hhalf : (2 : ℚ) ^ (k - 1) = 2 ^ k / 2 := by rw [zpow_sub₀ (by norm_num), zpow_one]
  obtain ⟨n, hn⟩ : ∃ n : ℤ, x = n * 2 ^ k := ⟨_, hx'.symm⟩
  rcases le_or_gt (k - 1) g with hkg | hkg
  · obtain ⟨a, ha⟩ := div_pow_int m hkg
    have hp := pow2_pos (k - 1)
    have h1 : (m : ℚ) * 2 ^ g = a * 2 ^ (k - 1) := by rw [← ha]; field_simp
    have h2 : x = ((2 * n : ℤ) : ℚ) * 2 ^ (k - 1) := by rw [hhalf, hn]; push_cast; ring
    rw [← hhalf, h1] at h
    nth_rewrite 1 [h2] at h
    rw [← sub_mul, abs_mul, abs_of_pos hp] at h
    have : |(a : ℚ) - (2 * n : ℤ)| < 1 := by nlinarith
    have : |a - 2 * n| < 1 := by exact_mod_cast this
    rw [Int.abs_lt_one_iff] at this
    rw [h1, h2, show a = 2 * n by omega]
  · exfalso
    have hk2 : k = Int.log 2 |x| - 52 := by
      rw [hk]; unfold quantum; rw [hk] at hkg; unfold quantum at hkg; omega
    have hlow : (2 : ℚ) ^ 52 * 2 ^ k ≤ x := by
      have := Int.zpow_log_le_self (b := 2) (by norm_num) (abs_pos.2 hx.ne')
      rw [abs_of_pos hx] at this hk2
      have e : (2 : ℚ) ^ 52 * 2 ^ k = 2 ^ Int.log 2 x := by
        rw [hk2, show (2 : ℚ) ^ 52 = 2 ^ (52 : ℤ) by norm_num, ← zpow_add₀ (by norm_num)]
        congr 1; omega
      rw [e]
      exact_mod_cast this
    have hup : (m : ℚ) * 2 ^ g ≤ 2 ^ 51 * 2 ^ k := by
      have h1 : (m : ℚ) ≤ 2 ^ 53 := by exact_mod_cast (abs_le.1 hm).2
      have h2 : (2 : ℚ) ^ g ≤ 2 ^ k / 4 := by
        have : (2 : ℚ) ^ g ≤ 2 ^ (k - 2) := zpow_le_zpow_right₀ (by norm_num) (by omega)
        rwa [zpow_sub₀ (by norm_num), show (2 : ℚ) ^ (2 : ℤ) = 4 by norm_num] at this
      have := pow2_pos g
      nlinarith
    rw [abs_lt] at h
    nlinarith [h.1]

/-- A number closer to `x` than a quarter of the spacing is rounded to `x`. -/
theorem toF64_close {x y : ℚ} (hx : 0 < x) (hr : Representable x) (hb : |x| < 2 ^ (1024 : ℤ))
    (h : |x - y| < 2 ^ quantum x / 4) : toF64 y = .fin x := by
  rw [toF64_fin]
  refine ⟨close_eq hx (representable_round hr) (roundQ_representable y) ?_, hb⟩
  have h1 := (roundQ_nearest y).2 x hr
  have h2 : |roundQ y - x| ≤ |roundQ y - y| + |x - y| := by
    have : roundQ y - x = (roundQ y - y) - (x - y) := by ring
    rw [this]; exact abs_sub _ _
  linarith

theorem rne_half (t : ℚ) : |(rne t : ℚ) - t| ≤ 1 / 2 := by
  have h1 : (⌊t⌋ : ℚ) ≤ t := Int.floor_le t
  have h2 : t < ⌊t⌋ + 1 := Int.lt_floor_add_one t
  rcases le_or_gt (t - ⌊t⌋) (1 / 2) with h | h
  · refine (rne_dist t ⌊t⌋).trans ?_
    rw [abs_of_nonpos (by linarith)]; linarith
  · refine (rne_dist t (⌊t⌋ + 1)).trans ?_
    push_cast
    rw [abs_of_nonneg (by linarith)]; linarith

theorem floor_toNat {t : ℚ} (h : 0 ≤ t) : ((⌊t⌋.toNat : ℕ) : ℚ) = ⌊t⌋ := by
  have : ((⌊t⌋.toNat : ℕ) : ℤ) = ⌊t⌋ := Int.toNat_of_nonneg (Int.floor_nonneg.2 h)
  exact_mod_cast this

/-- The neighbours of `x` among the multiples of `10^e`. -/
theorem candidate_bounds {x : ℚ} (hx : 0 < x) (e : ℤ) :
    ((⌊x / 10 ^ e⌋.toNat : ℕ) : ℚ) * 10 ^ e ≤ x ∧ x < ((⌊x / 10 ^ e⌋.toNat + 1 : ℕ) : ℚ) * 10 ^ e := by
  have hp := ten_pos e
  have ht : 0 ≤ x / 10 ^ e := by positivity
  push_cast
  rw [floor_toNat ht]
  constructor
  · exact (le_div_iff₀ hp).1 (Int.floor_le _)
  · exact (div_lt_iff₀ hp).1 (Int.lt_floor_add_one _)

/-- What is printed is read back. -/
theorem candidate_reads {x : ℚ} (hx : 0 < x) {e : ℤ} {d : ℕ} (h : candidate x e = some d) :
    toF64 ((d : ℚ) * 10 ^ e) = .fin x := by
  obtain ⟨h1, h2⟩ := candidate_bounds hx e
  have hp := ten_pos e
  have ht : 0 ≤ x / 10 ^ e := by positivity
  unfold candidate at h
  dsimp only at h
  split at h
  · rename_i hc
    rw [Bool.and_eq_true, decide_eq_true_iff, decide_eq_true_iff] at hc
    cases h
    refine toF64_between hc.1 hc.2 ?_ ?_
    · refine mul_le_mul_of_nonneg_right ?_ hp.le
      have : ⌊x / 10 ^ e⌋ ≤ rne (x / 10 ^ e) := rne_mono_int_ge (Int.floor_le _)
      exact_mod_cast Int.toNat_le_toNat this
    · refine mul_le_mul_of_nonneg_right ?_ hp.le
      have : rne (x / 10 ^ e) ≤ ⌊x / 10 ^ e⌋ + 1 := rne_mono_int_le (by push_cast; exact (Int.lt_floor_add_one _).le)
      have h0 : 0 ≤ ⌊x / 10 ^ e⌋ := Int.floor_nonneg.2 ht
      have : (rne (x / 10 ^ e)).toNat ≤ ⌊x / 10 ^ e⌋.toNat + 1 := by omega
      exact_mod_cast this
  · split at h
    · rename_i hc; cases h; simpa using hc
    · split at h
      · rename_i hc; cases h; simpa using hc
      · cases h

theorem toF64_refl {q x : ℚ} (h : toF64 q = .fin x) : toF64 x = .fin x :=
  toF64_self (toF64_isDouble h).1 (toF64_isDouble h).2

/-- If there is nothing to print, no multiple of the step is read back. -/
theorem candidate_none {x : ℚ} (hx : 0 < x) {e : ℤ} (h : candidate x e = none) (n : ℤ) :
    toF64 ((n : ℚ) * 10 ^ e) ≠ .fin x := by
  intro hn
  have hself := toF64_refl hn
  obtain ⟨h1, h2⟩ := candidate_bounds hx e
  have hp := ten_pos e
  have ht : 0 ≤ x / 10 ^ e := by positivity
  have h0 : 0 ≤ ⌊x / 10 ^ e⌋ := Int.floor_nonneg.2 ht
  unfold candidate at h
  dsimp only at h
  have nlo : toF64 (((⌊x / 10 ^ e⌋.toNat : ℕ) : ℚ) * 10 ^ e) ≠ .fin x := by
    intro hc
    rw [hc] at h
    split at h <;> simp at h
  have nhi : toF64 (((⌊x / 10 ^ e⌋.toNat + 1 : ℕ) : ℚ) * 10 ^ e) ≠ .fin x := by
    intro hc
    rw [hc] at h
    split at h
    · simp at h
    · split at h <;> simp at h
  rcases le_or_gt n ⌊x / 10 ^ e⌋ with hle | hgt
  · refine nlo (toF64_between hn hself (mul_le_mul_of_nonneg_right ?_ hp.le) h1)
    rw [floor_toNat ht]
    exact_mod_cast hle
  · refine nhi (toF64_between hself hn h2.le (mul_le_mul_of_nonneg_right ?_ hp.le))
    push_cast
    rw [floor_toNat ht]
    exact_mod_cast hgt

/-- A number closer to `x` than half of the spacing is rounded to `x`, unless the spacing changes at `x`. -/
theorem toF64_half {x y : ℚ} (hx : 0 < x) (hr : Representable x) (hb : |x| < 2 ^ (1024 : ℤ))
    (hne : x ≠ 2 ^ 52 * 2 ^ quantum x) (h : |x - y| < 2 ^ quantum x / 2) : toF64 y = .fin x := by
  rw [toF64_fin]
  refine ⟨?_, hb⟩
  have hx' := representable_round hr
  have h1 := (roundQ_nearest y).2 x hr
  have h2 : |roundQ y - x| ≤ |roundQ y - y| + |x - y| := by
    have : roundQ y - x = (roundQ y - y) - (x - y) := by ring
    rw [this]; exact abs_sub _ _
  have h3 : |roundQ y - x| < 2 ^ quantum x := by linarith
  obtain ⟨m, g, hm, hg, hz⟩ := roundQ_representable y
  rw [hz] at h3 ⊢
  set k := quantum x with hk
  have hpk := pow2_pos k
  obtain ⟨n, hn⟩ : ∃ n : ℤ, x = n * 2 ^ k := ⟨_, hx'.symm⟩
  rcases le_or_gt k g with hkg | hkg
  · obtain ⟨a, ha⟩ := div_pow_int m hkg
    have h4 : (m : ℚ) * 2 ^ g = a * 2 ^ k := by rw [← ha]; field_simp
    rw [h4] at h3 ⊢
    nth_rewrite 1 [hn] at h3
    rw [← sub_mul, abs_mul, abs_of_pos hpk] at h3
    have : |(a : ℚ) - n| < 1 := by nlinarith
    have : |a - n| < 1 := by exact_mod_cast this
    rw [Int.abs_lt_one_iff] at this
    rw [hn, show a = n by omega]
  · exfalso
    have hk2 : k = Int.log 2 |x| - 52 := by
      rw [hk]; unfold quantum; rw [hk] at hkg; unfold quantum at hkg; omega
    have hlow : (2 : ℚ) ^ 52 * 2 ^ k ≤ x := by
      have := Int.zpow_log_le_self (b := 2) (by norm_num) (abs_pos.2 hx.ne')
      rw [abs_of_pos hx] at this hk2
      have e : (2 : ℚ) ^ 52 * 2 ^ k = 2 ^ Int.log 2 x := by
        rw [hk2, show (2 : ℚ) ^ 52 = 2 ^ (52 : ℤ) by norm_num, ← zpow_add₀ (by norm_num)]
        congr 1; omega
      rw [e]
      exact_mod_cast this
    have hn52 : (2 : ℤ) ^ 52 + 1 ≤ n := by
      have l1 : (2 : ℚ) ^ 52 ≤ n := le_of_mul_le_mul_right (by rwa [← hn]) hpk
      have l1 : (2 : ℤ) ^ 52 ≤ n := by exact_mod_cast l1
      rcases lt_or_eq_of_le l1 with h | h
      · omega
      · exact absurd (by rw [hn, ← h]; push_cast; rfl) hne
    have hup : (m : ℚ) * 2 ^ g ≤ 2 ^ 52 * 2 ^ k := by
      have h1 : (m : ℚ) ≤ 2 ^ 53 := by exact_mod_cast (abs_le.1 hm).2
      have h2 : (2 : ℚ) ^ g ≤ 2 ^ k / 2 := by
        have : (2 : ℚ) ^ g ≤ 2 ^ (k - 1) := zpow_le_zpow_right₀ (by norm_num) (by omega)
        rwa [zpow_sub₀ (by norm_num), zpow_one] at this
      have := pow2_pos g
      nlinarith
    have hlow2 : ((2 : ℚ) ^ 52 + 1) * 2 ^ k ≤ x := by
      have : ((2 : ℚ) ^ 52 + 1) ≤ n := by exact_mod_cast hn52
      rw [hn]
      nlinarith
    rw [abs_lt] at h3
    linarith [h3.1]

/-- Seventeen digits are enough. -/
theorem seventeen_read {x : ℚ} (hx : 0 < x) (hr : Representable x) (hb : |x| < 2 ^ (1024 : ℤ)) :
    toF64 ((rne (x / 10 ^ (Int.log 10 x - 16)) : ℚ) * 10 ^ (Int.log 10 x - 16)) = .fin x := by
  set e := Int.log 10 x - 16 with he
  have hp := ten_pos e
  have hd : |x - (rne (x / 10 ^ e) : ℚ) * 10 ^ e| ≤ 10 ^ e / 2 := by
    have h1 := rne_half (x / 10 ^ e)
    have : x - (rne (x / 10 ^ e) : ℚ) * 10 ^ e = (x / 10 ^ e - rne (x / 10 ^ e)) * 10 ^ e := by field_simp
    rw [this, abs_mul, abs_of_pos hp, abs_sub_comm]
    nlinarith
  have a : (10 : ℚ) ^ Int.log 10 x ≤ x := by
    simpa using Int.zpow_log_le_self (b := 10) (by norm_num) hx
  have c : (10 : ℚ) ^ e = 10 ^ Int.log 10 x / 10 ^ 16 := by
    rw [he, zpow_sub₀ (by norm_num)]; norm_num
  have d := pow2_pos (quantum x)
  by_cases hne : x = 2 ^ 52 * 2 ^ quantum x
  · refine toF64_close hx hr hb (hd.trans_lt ?_)
    rw [c, div_div, div_lt_iff₀ (by norm_num)]
    have a' := a.trans hne.le
    norm_num at a' ⊢
    nlinarith
  · refine toF64_half hx hr hb hne (hd.trans_lt ?_)
    have b := scaled_lt x
    rw [abs_div, abs_of_pos hx, abs_of_pos (pow2_pos _), div_lt_iff₀ (pow2_pos _)] at b
    rw [c]
    have : (10 : ℚ) ^ Int.log 10 x / 10 ^ 16 < 2 ^ quantum x := by
      rw [div_lt_iff₀ (by norm_num)]
      nlinarith
    linarith

theorem candidate_fine {x : ℚ} (hx : 0 < x) (hr : Representable x) (hb : |x| < 2 ^ (1024 : ℤ)) :
    candidate x (Int.log 10 x - 16) ≠ none :=
  fun h => candidate_none hx h _ (seventeen_read hx hr hb)

/-- The search ends with the first step that has something to print. -/
theorem shortest_spec {x : ℚ} (n : ℕ) : ∀ e : ℤ, (∃ j : ℕ, j < n ∧ candidate x (e - j) ≠ none) →
    ∃ d g, shortest x n e = (d, g) ∧ g ≤ e ∧ candidate x g = some d ∧ ∀ g', g < g' → g' ≤ e → candidate x g' = none := by
  induction n with
  | zero => exact fun e ⟨_, h, _⟩ => absurd h (Nat.not_lt_zero _)
  | succ n ih =>
    rintro e ⟨j, hj, hc⟩
    have hs : shortest x (n + 1) e = match candidate x e with
      | some d => (d, e)
      | none => shortest x n (e - 1) := rfl
    generalize hce : candidate x e = r at hs
    cases r with
    | some d => exact ⟨d, e, hs, le_rfl, hce, fun g' h1 h2 => absurd h1 (not_lt.2 h2)⟩
    | none =>
      cases j with
      | zero => exact absurd (by rw [Nat.cast_zero, sub_zero]; exact hce) hc
      | succ j =>
        obtain ⟨d, g, h1, h2, h3, h4⟩ := ih (e - 1)
          ⟨j, by omega, by rw [show e - 1 - (j : ℤ) = e - ((j + 1 : ℕ) : ℤ) by push_cast; ring]; exact hc⟩
        refine ⟨d, g, hs.trans h1, by omega, h3, fun g' h5 h6 => ?_⟩
        by_cases h7 : g' = e
        · rw [h7]; exact hce
        · exact h4 g' h5 (by omega)

/-- No power of ten beyond the next one is rounded to `x`. -/
theorem coarse_none {x : ℚ} (hx : 0 < x) {e n : ℤ} (he : Int.log 10 x + 1 < e) :
    toF64 ((n : ℚ) * 10 ^ e) ≠ .fin x := by
  intro h
  have hr := toF64_isDouble h
  rw [toF64_fin] at h
  have hp := ten_pos e
  have hn : 1 ≤ n := by
    by_contra hc
    have : (n : ℚ) * 10 ^ e ≤ 0 := mul_nonpos_of_nonpos_of_nonneg (by exact_mod_cast (by omega : n ≤ 0)) hp.le
    have := roundQ_mono this
    rw [roundQ_zero, h.1] at this
    linarith
  have hbig : 10 * x < n * 10 ^ e := by
    have a : x < (10 : ℚ) ^ (Int.log 10 x + 1) := by
      simpa using Int.lt_zpow_succ_log_self (b := 10) (by norm_num) x
    have b : (10 : ℚ) ^ (Int.log 10 x + 1 + 1) ≤ 10 ^ e := zpow_le_zpow_right₀ (by norm_num) (by omega)
    rw [zpow_add₀ (by norm_num), zpow_one] at b
    have c : (1 : ℚ) ≤ n := by exact_mod_cast hn
    nlinarith
  have h2 : Representable (2 * x) := by
    obtain ⟨⟨m, g, h1, h2, h3⟩, -⟩ := hr
    exact ⟨m, g + 1, h1, by omega, by rw [h3, zpow_add₀ (by norm_num), zpow_one]; ring⟩
  have := (roundQ_nearest (n * 10 ^ e)).2 _ h2
  rw [h.1, abs_of_nonpos (by linarith), abs_of_nonpos (by linarith)] at this
  linarith

/-- What is printed for a positive number. -/
theorem shortest_exists {x : ℚ} (hx : 0 < x) (hr : Representable x) (hb : |x| < 2 ^ (1024 : ℤ)) :
    ∃ d e, shortest x 18 (Int.log 10 x + 1) = (d, e) ∧ candidate x e = some d ∧
      ∀ (n g : ℤ), toF64 ((n : ℚ) * 10 ^ g) = .fin x → g ≤ e := by
  obtain ⟨d, e, h1, h2, h3, h4⟩ := shortest_spec (x := x) 18 (Int.log 10 x + 1) ⟨17, by omega, by
    have := candidate_fine hx hr hb
    rwa [show Int.log 10 x - 16 = Int.log 10 x + 1 - ((17 : ℕ) : ℤ) by push_cast; ring] at this⟩
  refine ⟨d, e, h1, h3, fun n g hg => ?_⟩
  by_contra hc
  rcases le_or_gt g (Int.log 10 x + 1) with h | h
  · exact candidate_none hx (h4 g (by omega) h) n hg
  · exact coarse_none hx h hg

end Aql
