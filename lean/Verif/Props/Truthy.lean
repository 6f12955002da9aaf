import Verif.Spec.Truthy
import Verif.Model.Values
import Verif.Proofs.Rounding
import Verif.Proofs.Number
/-!
Property C94: truth of JSON values.
-/

namespace Aql

open Spec

variable (E : Env)

theorem foldsTo_iff {p : Char} (hp : p ∈ "false".toList) (c : Char) : foldsTo p c = true ↔ plainCase c = p := by
  have key : foldsTo p c = true ↔ c.toNat = p.toNat ∨ c.toNat = p.toNat - 32 ∨ (p = 's' ∧ c.toNat = 0x17F) := by
    have hch : ∀ d : Char, c = d ↔ c.toNat = d.toNat := fun d => ⟨congrArg _, fun h => by
      rw [← Char.ofNat_toNat c, h, Char.ofNat_toNat]⟩
    have hu : (Char.ofNat (p.toNat - 32)).toNat = p.toNat - 32 := by
      revert p; decide
    unfold foldsTo
    rw [Bool.or_eq_true, Bool.or_eq_true, Bool.and_eq_true, beq_iff_eq, beq_iff_eq, beq_iff_eq, beq_iff_eq,
      hch p, hch (Char.ofNat _), hu, or_assoc]
  rw [key]
  have hlow : ∀ d : Char, c.toLower = d ↔
      (if 65 ≤ c.toNat ∧ c.toNat ≤ 90 then c.toNat + 32 = d.toNat else c.toNat = d.toNat) := by
    intro d
    have hd : ∀ e : Char, e = d ↔ e.val.toNat = d.val.toNat := fun e => by
      rw [Char.ext_iff, UInt32.toNat_inj]
    have hc : (c.val ≥ 'A'.val ∧ c.val ≤ 'Z'.val) ↔ 65 ≤ c.toNat ∧ c.toNat ≤ 90 := by
      rw [ge_iff_le, UInt32.le_iff_toNat_le, UInt32.le_iff_toNat_le]
      rfl
    unfold Char.toLower
    split
    · next h =>
      rw [if_pos (hc.1 h), hd]
      dsimp only
      rw [UInt32.toNat_add]
      have := hc.1 h
      change (c.toNat + 32) % 2 ^ 32 = d.toNat ↔ _
      rw [Nat.mod_eq_of_lt (by omega)]
    · next h => rw [if_neg (fun hh => h (hc.2 hh)), hd]; rfl
  unfold plainCase
  by_cases hs : c = 'ſ'
  · subst hs
    rw [if_pos rfl]
    revert p; decide
  · rw [if_neg hs, hlow]
    have h17 : c.toNat ≠ 0x17F := fun h => hs (by rw [← Char.ofNat_toNat c, h])
    have hp' : 97 ≤ p.toNat ∧ p.toNat ≤ 122 := by clear key; revert p; decide
    split <;> omega

theorem falsyString_iff (s : Str) : falsyString s = true ↔ s = "0".toList ∨ s.map plainCase = "false".toList := by
  have hl : ∀ (p s : Str), (∀ x ∈ p, x ∈ "false".toList) →
      ((s.length == p.length && (p.zip s).all fun x => foldsTo x.1 x.2) = true ↔ s.map plainCase = p) := by
    intro p
    induction p with
    | nil => intro s _; cases s <;> simp
    | cons a p ih =>
      intro s hs
      cases s with
      | nil => simp
      | cons c s =>
        have := ih s fun x hx => hs x (by simp [hx])
        have h1 := foldsTo_iff (hs a (by simp)) c
        simp only [List.zip_cons_cons, List.all_cons, List.map_cons, List.cons.injEq, ← this, ← h1,
          List.length_cons, Bool.and_eq_true, beq_iff_eq]
        constructor
        · rintro ⟨h2, h3, h4⟩; exact ⟨h3, by omega, h4⟩
        · rintro ⟨h3, h2, h4⟩; exact ⟨by omega, h3, h4⟩
  unfold falsyString
  rw [Bool.or_eq_true, beq_iff_eq]
  exact or_congr Iff.rfl (hl "false".toList s (fun x hx => hx))

/-- **C94, partial.** The documented values are falsy and no other boolean or null; a string in which no
letter of `false` is in upper case (and no long s occurs) is falsy only if documented so. Missing from the full
statement: other strings and tiny numbers, for which it is false (`C94_truthy_refuted`, `C94_truthy_exact`). -/
theorem C94_truthy_partial :
    getTruthyVal E .null = some false ∧ (∀ b, getTruthyVal E (.bool b) = some b) ∧
    (∀ raw, FalsyText raw → getTruthyVal E (.str raw) = some false) ∧
    (∀ raw, (∀ c ∈ raw, plainCase c = c) → ¬ FalsyText raw → getTruthyVal E (.str raw) = some true) ∧
    (∀ items, getTruthyVal E (.arr items) = none) ∧ (∀ ms, getTruthyVal E (.obj ms) = none) := by
  refine ⟨rfl, fun _ => rfl, fun raw h => ?_, fun raw hc h => ?_, fun _ => rfl, fun _ => rfl⟩
  · refine if_pos ?_
    rcases h with rfl | rfl | rfl
    · exact .inl rfl
    · exact .inr (by decide)
    · exact .inr (by decide)
  · refine if_neg ?_
    rintro (h1 | h1)
    · exact h (.inl (List.length_eq_zero_iff.1 h1))
    · rcases (falsyString_iff raw).1 h1 with h2 | h2
      · exact h (.inr (.inl h2))
      · rw [List.map_congr_left hc, List.map_id'] at h2
        exact h (.inr (.inr h2))

theorem rne_zero (t : ℚ) : rne t = 0 ↔ |t| ≤ 1 / 2 := by
  have h1 := Int.floor_le t
  have h2 := Int.lt_floor_add_one t
  unfold rne
  dsimp only
  rw [abs_le]
  split
  · next h =>
    constructor
    · intro h0; rw [h0] at h h1; norm_num at h h1; constructor <;> linarith
    · rintro ⟨h3, h4⟩
      have : (⌊t⌋ : ℚ) < 1 := by linarith
      have h5 : (-1 : ℚ) < ⌊t⌋ := by linarith
      have : ⌊t⌋ < 1 := by exact_mod_cast this
      have h5 : -1 < ⌊t⌋ := by exact_mod_cast h5
      omega
  · split
    · next h' h =>
      constructor
      · intro h0
        have : ⌊t⌋ = -1 := by omega
        rw [this] at h h1 h2; norm_num at h h1 h2; constructor <;> linarith
      · rintro ⟨h3, h4⟩
        have : (⌊t⌋ : ℚ) < 0 := by linarith
        have h5 : (-2 : ℚ) < ⌊t⌋ := by linarith
        have : ⌊t⌋ < 0 := by exact_mod_cast this
        have h5 : -2 < ⌊t⌋ := by exact_mod_cast h5
        omega
    · next h' h =>
      have he : t = ⌊t⌋ + 1 / 2 := by linarith
      have hz : (t ≤ 1 / 2 ∧ -(1 / 2) ≤ t) ↔ ⌊t⌋ = 0 ∨ ⌊t⌋ = -1 := by
        constructor
        · rintro ⟨h3, h4⟩
          have : (⌊t⌋ : ℚ) ≤ 0 := by linarith
          have h5 : (-1 : ℚ) ≤ ⌊t⌋ := by linarith
          have : ⌊t⌋ ≤ 0 := by exact_mod_cast this
          have h5 : -1 ≤ ⌊t⌋ := by exact_mod_cast h5
          omega
        · rintro (h0 | h0) <;> rw [h0] at he <;> norm_num at he <;> constructor <;> linarith
      rw [and_comm, hz]
      split <;> omega

theorem roundQ_eq_zero (q : ℚ) : roundQ q = 0 ↔ |q| ≤ 2 ^ (-1075 : ℤ) := by
  by_cases hq0 : q = 0
  · subst hq0
    rw [roundQ_zero, abs_zero]
    exact ⟨fun _ => (zpow_pos (by norm_num) _).le, fun _ => rfl⟩
  replace hq0 : 0 < |q| := abs_pos.2 hq0
  have hpos : (0 : ℚ) < 2 ^ quantum q := zpow_pos (by norm_num) _
  have h1 : roundQ q = 0 ↔ rne (q / 2 ^ quantum q) = 0 := by
    unfold roundQ
    rw [mul_eq_zero, or_iff_left hpos.ne', Int.cast_eq_zero]
  rw [h1, rne_zero, abs_div, abs_of_pos hpos, div_le_iff₀ hpos]
  by_cases hq : Int.log 2 |q| - 52 ≤ -1074
  · have : quantum q = -1074 := max_eq_right hq
    rw [this]
    have : (1 : ℚ) / 2 * 2 ^ (-1074 : ℤ) = 2 ^ (-1075 : ℤ) := by
      rw [show (-1074 : ℤ) = -1075 + 1 by norm_num, zpow_add_one₀ (by norm_num)]
      ring
    rw [this]
  · have he : quantum q = Int.log 2 |q| - 52 := max_eq_left (by omega)
    have hle : (2 : ℚ) ^ Int.log 2 |q| ≤ |q| := by
      have := Int.zpow_log_le_self (b := 2) (by norm_num) hq0
      exact_mod_cast this
    constructor
    · intro h
      exfalso
      have : (2 : ℚ) ^ (quantum q) < 2 ^ Int.log 2 |q| := zpow_lt_zpow_right₀ (by norm_num) (by omega)
      linarith
    · intro h
      exfalso
      have : (2 : ℚ) ^ (-1075 : ℤ) < 2 ^ Int.log 2 |q| := zpow_lt_zpow_right₀ (by norm_num) (by omega)
      linarith

theorem truthy_closed :
    (∀ raw, getTruthyVal E (.str raw) =
      some (!decide (raw = [] ∨ raw = "0".toList ∨ raw.map plainCase = "false".toList))) ∧
    (∀ raw q, decimalValue raw = some q → getTruthyVal E (.num raw) =
      if ∃ neg, toF64 q = .inf neg then none else some (!decide (|q| ≤ 2 ^ (-1075 : ℤ)))) := by
  constructor
  · intro raw
    by_cases h : raw = [] ∨ raw = "0".toList ∨ raw.map plainCase = "false".toList
    · rw [decide_eq_true h]
      refine if_pos ?_
      rcases h with rfl | h
      · exact .inl rfl
      · exact .inr ((falsyString_iff raw).2 h)
    · rw [decide_eq_false h]
      refine if_neg ?_
      rintro (h1 | h1)
      · exact h (.inl (List.length_eq_zero_iff.1 h1))
      · exact h (.inr ((falsyString_iff raw).1 h1))
  · intro raw q hq
    dsimp only [getTruthyVal]
    unfold parseFloat
    rw [hq]
    dsimp only
    by_cases h : ∃ neg, toF64 q = .inf neg
    · rw [if_pos h]
      obtain ⟨neg, h⟩ := h
      rw [h]
    · rw [if_neg h]
      have hf : toF64 q = .fin (roundQ q) := by
        unfold toF64 at h ⊢
        dsimp only at h ⊢
        split
        · next h' => rw [if_pos h'] at h; exact absurd ⟨_, rfl⟩ h
        · rfl
      rw [hf]
      dsimp only [F64.eq]
      simp only [roundQ_eq_zero]

/-- **C94, exactly.** A string is falsy if and only if its raw text is empty, `0`, or `false` in any case (with the
long s for s), a number in decimal notation if and only if it is at most half of the smallest positive
double; every other string is truthy, and so is every other number that is not too large. -/
theorem C94_truthy_exact :
    (∀ raw, getTruthyVal E (.str raw) =
      some (!decide (raw = [] ∨ raw = "0".toList ∨ raw.map plainCase = "false".toList))) ∧
    (∀ raw q x, DecText raw q → RoundsTo q x →
      (|x| < 2 ^ (1024 : ℤ) → getTruthyVal E (.num raw) = some (!decide (|q| ≤ 2 ^ (-1075 : ℤ)))) ∧
      (2 ^ (1024 : ℤ) ≤ |x| → getTruthyVal E (.num raw) = none)) := by
  refine ⟨(truthy_closed E).1, fun raw q x hq hx => ?_⟩
  rw [roundsTo_iff] at hx
  subst hx
  rw [(truthy_closed E).2 raw q ((decimalValue_iff raw q).2 hq)]
  unfold toF64
  dsimp only
  generalize (2 : ℚ) ^ (1024 : ℤ) = big
  constructor
  · intro h
    rw [if_neg, ]
    rintro ⟨neg, h'⟩
    rw [if_neg (not_le.2 h)] at h'
    cases h'
  · intro h
    rw [if_pos ⟨_, if_pos h⟩]

/-- **C94, refuted.** `FALSE`, `faLſe` and `1e-400` are falsy. -/
theorem C94_truthy_refuted : getTruthyVal E (.str "FALSE".toList) = some false ∧
    getTruthyVal E (.str "faLſe".toList) = some false ∧ getTruthyVal E (.num "1e-400".toList) = some false ∧
    DecText "1e-400".toList (1 / 10 ^ 400) := by
  have hd : decimalValue "1e-400".toList = some (1 / 10 ^ 400) := by
    have : decimalValue "1e-400".toList = some (((1 : ℕ) : ℚ) * (10 : ℚ) ^ (-400 : ℤ)) := by rfl
    rw [this, Nat.cast_one, one_mul, zpow_neg, one_div]
    norm_cast
  refine ⟨rfl, rfl, ?_, (decimalValue_iff _ _).1 hd⟩
  have hb : (1 : ℚ) / 10 ^ 400 ≤ 1 / 2 ^ 1075 := by
    apply one_div_le_one_div_of_le (by positivity)
    calc (2 : ℚ) ^ 1075 ≤ 2 ^ (16 * 80) := pow_le_pow_right₀ (by norm_num) (by norm_num)
      _ = (2 ^ 16) ^ 80 := pow_mul _ _ _
      _ ≤ (10 ^ 5) ^ 80 := pow_le_pow_left₀ (by norm_num) (by norm_num) _
      _ = 10 ^ 400 := by rw [← pow_mul]
  have h2 : (2 : ℚ) ^ (-1075 : ℤ) = 1 / 2 ^ 1075 := by
    rw [zpow_neg, one_div]
    norm_cast
  have habs : |(1 : ℚ) / 10 ^ 400| = 1 / 10 ^ 400 := abs_of_pos (by positivity)
  rw [(truthy_closed E).2 _ _ hd, if_neg, decide_eq_true]
  · rfl
  · rw [habs, h2]; exact hb
  · rintro ⟨neg, h⟩
    rw [toF64_small] at h
    · cases h
    · rw [habs]
      refine hb.trans ?_
      calc (1 : ℚ) / 2 ^ 1075 ≤ 1 := by
            rw [div_le_one (by positivity)]
            exact one_le_pow₀ (by norm_num)
        _ ≤ 2 ^ 63 := by norm_num

/-! ### C95 -/

/-- Arrays. -/
def Spec.isArray : Json → Bool
  | .arr _ => true
  | _ => false

/-- Values that are neither arrays nor objects. -/
def Spec.isSingle : Json → Bool
  | .arr _ | .obj _ => false
  | _ => true

/-- **C95.** The list values of a field are its arrays in their order, and the scalars that comparisons look at
are those of the list values together with the values that are neither arrays nor objects. -/
theorem C95_lists (vs : List Json) :
    listValues vs = vs.filter isArray ∧
    (scalarValues vs).Perm (scalarValues (listValues vs) ++ vs.filter isSingle) := by
  have ha : isArray = Json.isArr := by funext v; cases v <;> rfl
  have hb : isSingle = fun v => !v.isArr && !v.isObj := by funext v; cases v <;> rfl
  rw [ha, hb]
  clear ha hb
  induction vs with
  | nil => exact ⟨rfl, .refl _⟩
  | cons v vs ih =>
    obtain ⟨h1, h2⟩ := ih
    have hl : listValues (v :: vs) = (if v.isArr then [v] else []) ++ listValues vs := by
      cases v <;> rfl
    have hs : ∀ ws, scalarValues (v :: ws) = scalarValues [v] ++ scalarValues ws := by
      intro ws; simp [scalarValues]
    refine ⟨by rw [hl, h1, List.filter_cons]; cases v <;> rfl, ?_⟩
    rw [hl, hs]
    cases v with
    | arr items =>
      simp only [Json.isArr, if_true, List.singleton_append]
      rw [hs (listValues vs), List.append_assoc]
      exact h2.append_left _
    | obj ms => simpa [Json.isArr, Json.isObj, scalarValues] using h2
    | _ =>
      simp only [Json.isArr, Bool.false_eq_true, if_false, List.nil_append, Json.isObj, Bool.not_false, Bool.and_self,
        List.filter_cons, if_true]
      exact (h2.cons _).trans List.perm_middle.symm

example : listValues [.null, .arr [.null], .num "1".toList, .arr []] = [.arr [.null], .arr []] := rfl

end Aql
