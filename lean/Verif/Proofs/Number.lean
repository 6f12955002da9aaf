import Mathlib.Tactic.FieldSimp
import Mathlib.Tactic.Ring
import Verif.Model.Ast
import Verif.Spec.Number
import Verif.Proofs.Digits
/-! Decimal text: the model's reading agrees with the specification. -/

namespace Aql

open Spec

theorem allDigits_iff (s : Str) : AllDigits s ↔ ∀ c ∈ s, isDig c = true := by
  simp only [AllDigits, isDig_iff]

theorem digitsValue_append (s t : Str) :
    digitsValue (s ++ t) = digitsValue s * 10 ^ t.length + digitsValue t := by
  induction s with
  | nil => simp [digitsValue]
  | cons c s ih =>
    simp only [List.cons_append, digitsValue, ih, List.length_append, pow_add]
    ring

theorem natOfDigits_eq (s : Str) : natOfDigits s = digitsValue s := by
  induction s using List.reverseRecOn with
  | nil => rfl
  | append_singleton s c ih =>
    rw [natOfDigits_snoc, digitsValue_append, ih]
    simp [digitsValue, digVal]

theorem signText_takeSign {sg : Str} {neg : Bool} (h : SignText sg neg) (t : Str)
    (ht : t.head? ≠ some '+' ∧ t.head? ≠ some '-') : takeSign (sg ++ t) = (neg, t) := by
  cases h with
  | none =>
    cases t with
    | nil => rfl
    | cons c t =>
      simp only [List.head?_cons, ne_eq, Option.some.injEq] at ht
      simp only [List.nil_append]
      rw [takeSign]
      · exact fun _ h => ht.1 (by cases h; rfl)
      · exact fun _ h => ht.2 (by cases h; rfl)
  | plus => rfl
  | minus => rfl

theorem takeSign_spec (s : Str) : ∃ sg, SignText sg (takeSign s).1 ∧ s = sg ++ (takeSign s).2 := by
  unfold takeSign
  split
  · exact ⟨_, .plus, rfl⟩
  · exact ⟨_, .minus, rfl⟩
  · exact ⟨_, .none, rfl⟩

theorem head_digit {s : Str} (h : AllDigits s) {c : Char} (hc : s.head? = some c) :
    isDig c = true := by
  cases s with
  | nil => cases hc
  | cons x s =>
    simp only [List.head?_cons, Option.some.injEq] at hc
    subst hc
    exact (allDigits_iff _).1 h x (by simp)

theorem spanDigits_append {ds t : Str} (hd : AllDigits ds)
    (ht : ∀ c, t.head? = some c → isDig c = false) : spanDigits (ds ++ t) = (ds, t) := by
  rw [allDigits_iff] at hd
  unfold spanDigits
  have h1 : t.takeWhile isDig = [] := by
    cases t with
    | nil => rfl
    | cons c t => simp [ht c rfl]
  have h2 : t.dropWhile isDig = t := by
    cases t with
    | nil => rfl
    | cons c t => simp [ht c rfl]
  rw [List.takeWhile_append_of_pos hd, List.dropWhile_append_of_pos hd, h1, h2, List.append_nil]

theorem spanDigits_spec (s : Str) : AllDigits (spanDigits s).1 ∧
    s = (spanDigits s).1 ++ (spanDigits s).2 ∧
    ∀ c, (spanDigits s).2.head? = some c → isDig c = false := by
  refine ⟨?_, ?_, ?_⟩
  · rw [allDigits_iff]
    intro c hc
    exact (List.all_takeWhile (p := isDig) (l := s) |> List.all_eq_true.1) c hc
  · exact (List.takeWhile_append_dropWhile).symm
  · intro c hc
    simp only [spanDigits] at hc
    have := List.head?_dropWhile_not isDig s
    rw [hc] at this
    simpa using this

theorem decimalExp_iff (s : Str) (e : Int) : decimalExp s = some e ↔ ExpText s e := by
  constructor
  · intro h
    cases s with
    | nil => simp only [decimalExp, Option.some.injEq] at h; subst h; exact .none
    | cons c s =>
      simp only [decimalExp] at h
      split at h
      · rename_i hc
        split at h
        · rename_i hd
          simp only [Option.some.injEq] at h
          obtain ⟨sg, hs, he⟩ := takeSign_spec s
          have hall : AllDigits (takeSign s).2 := by
            rw [allDigits_iff]; exact fun c hc => List.all_eq_true.1 hd.2 c hc
          have := ExpText.exp (c := c) hc hs hd.1 hall
          rw [← he, ← natOfDigits_eq, h] at this
          exact this
        · cases h
      · cases h
  · intro h
    cases h with
    | none => rfl
    | exp hc hs hne hd =>
      rename_i c sg neg ds
      have hhead : ds.head? ≠ some '+' ∧ ds.head? ≠ some '-' := by
        constructor <;> (intro h; have := head_digit hd h; revert this; decide)
      simp only [decimalExp, if_pos hc, signText_takeSign hs ds hhead]
      have : ds.all isDig = true := List.all_eq_true.2 ((allDigits_iff ds).1 hd)
      rw [if_pos ⟨hne, this⟩, natOfDigits_eq]

theorem decimalValue_of (s : Str) (q : ℚ) (h : DecText s q) : decimalValue s = some q := by
  obtain ⟨sg, neg, ip, ft, fp, et, e, hs, hip, hft, hne, het, rfl, rfl⟩ := h
  have het0 : ∀ c, et.head? = some c → isDig c = false ∧ c ≠ '+' ∧ c ≠ '-' ∧ c ≠ '.' := by
    intro c hc
    cases het with
    | none => cases hc
    | exp h =>
      simp only [List.head?_cons, Option.some.injEq] at hc
      subst hc
      rcases h with rfl | rfl <;> decide
  have hfte : ∀ c, (ft ++ et).head? = some c → isDig c = false ∧ c ≠ '+' ∧ c ≠ '-' := by
    intro c hc
    cases hft with
    | none => have := het0 c hc; exact ⟨this.1, this.2.1, this.2.2.1⟩
    | point h =>
      simp only [List.cons_append, List.head?_cons, Option.some.injEq] at hc
      subst hc; decide
  have hhead : (ip ++ (ft ++ et)).head? ≠ some '+' ∧ (ip ++ (ft ++ et)).head? ≠ some '-' := by
    cases ip with
    | nil =>
      constructor <;> (intro h; have := hfte _ h; simp at this)
    | cons x ip =>
      constructor <;> (intro h; have := head_digit hip (c := x) rfl; simp at h; subst h; revert this; decide)
  have hspan2 : fracPart (ft ++ et) = (fp, et) := by
    cases hft with
    | none =>
      rw [List.nil_append]
      cases et with
      | nil => rfl
      | cons c et =>
        have := (het0 c rfl).2.2.2
        unfold fracPart
        split
        · rename_i u heq; cases heq; exact absurd rfl this
        · rfl
    | point hfp =>
      simp only [List.cons_append]
      exact spanDigits_append hfp (fun c hc => (het0 c hc).1)
  unfold decimalValue
  rw [signText_takeSign hs _ hhead]
  dsimp only
  rw [spanDigits_append hip (fun c hc => (hfte c hc).1)]
  dsimp only
  rw [hspan2]
  dsimp only
  rw [if_neg (by rintro ⟨h1, h2⟩; rcases hne with h | h; exact h h1; exact h h2),
    (decimalExp_iff et e).2 het]
  simp only [natOfDigits_eq, digitsValue_append, Option.some.injEq]
  have h10 : (10 : ℚ) ≠ 0 := by norm_num
  rw [zpow_sub₀ h10, zpow_natCast]
  push_cast
  cases neg
  · simp; field_simp
  · simp; field_simp; ring

theorem fracPart_spec (s : Str) : ∃ ft, FracText ft (fracPart s).1 ∧ s = ft ++ (fracPart s).2 := by
  unfold fracPart
  split
  · rename_i u
    obtain ⟨g1, g2, _⟩ := spanDigits_spec u
    exact ⟨_, .point g1, by rw [List.cons_append, ← g2]⟩
  · exact ⟨[], .none, rfl⟩

theorem decimalValue_iff (s : Str) (q : ℚ) : decimalValue s = some q ↔ DecText s q := by
  constructor
  · intro h
    have hd : ∃ q', DecText s q' := by
      unfold decimalValue at h
      obtain ⟨sg, hs, he⟩ := takeSign_spec s
      obtain ⟨h1, h2, h3⟩ := spanDigits_spec (takeSign s).2
      set ip := (spanDigits (takeSign s).2).1 with hip
      set t1 := (spanDigits (takeSign s).2).2 with ht1
      have hf := fracPart_spec t1
      rcases hp : fracPart t1 with ⟨fp, t2⟩
      rw [hp] at hf
      obtain ⟨ft, hft, ht⟩ := hf
      dsimp only at h
      rw [hp] at h
      dsimp only at h
      split at h
      · cases h
      · rename_i hne
        split at h
        · cases h
        · rename_i e hexp
          refine ⟨_, sg, _, ip, ft, fp, t2, e, hs, h1, hft, ?_, (decimalExp_iff _ _).1 hexp, ?_, rfl⟩
          · by_contra hc
            push Not at hc
            exact hne hc
          · rw [← ht, ← h2, ← he]
    obtain ⟨q', hq'⟩ := hd
    have := decimalValue_of s q' hq'
    rw [h] at this
    cases this
    exact hq'
  · exact decimalValue_of s q

theorem intText_decText {s : Str} {n : Int} (h : IntText s n) : DecText s n := by
  obtain ⟨sg, neg, ds, hs, hne, hd, rfl, rfl⟩ := h
  refine ⟨sg, neg, ds, [], [], [], 0, hs, hd, .none, Or.inl hne, .none, by simp, ?_⟩
  cases neg <;> simp [digitsValue]

/-- strconv.ParseInt on the specified text. -/
theorem parseInt64_iff (s : Str) (n : Int) :
    parseInt64 s = some n ↔ IntText s n ∧ -(2 ^ 63 : Int) ≤ n ∧ n < 2 ^ 63 := by
  constructor
  · intro h
    obtain ⟨sg, hs, he⟩ := takeSign_spec s
    unfold parseInt64 at h
    dsimp only at h
    by_cases hd : (takeSign s).2 ≠ [] ∧ (takeSign s).2.all isDig = true
    · rw [if_pos hd] at h
      generalize hv : (if (takeSign s).1 = true then -(natOfDigits (takeSign s).2 : Int)
        else (natOfDigits (takeSign s).2 : Int)) = v at h
      by_cases hr : -(2 ^ 63 : Int) ≤ v ∧ v < 2 ^ 63
      · rw [if_pos hr] at h
        have h := Option.some.inj h
        subst h
        refine ⟨⟨sg, _, _, hs, hd.1, ?_, he, ?_⟩, hr⟩
        · rw [allDigits_iff]; exact fun c hc => List.all_eq_true.1 hd.2 c hc
        · rw [← natOfDigits_eq]; exact hv.symm
      · rw [if_neg hr] at h; cases h
    · rw [if_neg hd] at h; cases h
  · rintro ⟨⟨sg, neg, ds, hs, hne, hd, rfl, rfl⟩, hr⟩
    have hhead : ds.head? ≠ some '+' ∧ ds.head? ≠ some '-' := by
      constructor <;> (intro h; have := head_digit hd h; revert this; decide)
    have : ds.all isDig = true := List.all_eq_true.2 ((allDigits_iff ds).1 hd)
    unfold parseInt64
    rw [signText_takeSign hs ds hhead]
    dsimp only
    rw [if_pos ⟨hne, this⟩, natOfDigits_eq, if_pos hr]

end Aql
