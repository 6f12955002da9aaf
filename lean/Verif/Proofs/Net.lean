import Mathlib.Tactic.Ring
import Verif.Model.Exprs
import Verif.Proofs.Digits
/-! Lemmas about IPv4 texts, blocks and their extraction from text. -/

namespace Aql

open Spec

/-! ### octets, addresses, prefixes -/

theorem parseOctet_iff (s : Str) (n : Nat) : parseOctet s = some n ↔ n ≤ 255 ∧ s = numeral n := by
  unfold parseOctet
  constructor
  · intro h
    split_ifs at h with h1 h2 h3
    push Not at h1
    obtain ⟨hne, hall, hlen⟩ := h1
    cases h
    refine ⟨h3, (numeral_natOfDigits s ?_ hne ?_).symm⟩
    · simpa using hall
    · intro hl hz; exact h2 ⟨hl, hz⟩
  · rintro ⟨hn, rfl⟩
    have h1 : ¬ (numeral n = [] ∨ ¬ (numeral n).all isDig ∨ 3 < (numeral n).length) := by
      push Not
      refine ⟨numeral_ne_nil n, ?_, ?_⟩
      · simpa using numeral_digits n
      · rw [numeral_length_le (by norm_num)]; omega
    have h2 : ¬ (1 < (numeral n).length ∧ (numeral n).head? = some '0') :=
      fun h => numeral_head n h.1 h.2
    rw [if_neg h1, if_neg h2, natOfDigits_numeral, if_pos hn]

theorem parseBits_iff (s : Str) (n : Nat) : parseBits s = some n ↔ n ≤ 32 ∧ s = numeral n := by
  unfold parseBits
  constructor
  · intro h
    split_ifs at h with h1 h2 h3
    push Not at h1
    obtain ⟨hne, hall⟩ := h1
    cases h
    refine ⟨h3, (numeral_natOfDigits s ?_ hne ?_).symm⟩
    · simpa using hall
    · intro hl hz; exact h2 ⟨hl, hz⟩
  · rintro ⟨hn, rfl⟩
    have h1 : ¬ (numeral n = [] ∨ ¬ (numeral n).all isDig) := by
      push Not
      exact ⟨numeral_ne_nil n, by simpa using numeral_digits n⟩
    have h2 : ¬ (1 < (numeral n).length ∧ (numeral n).head? = some '0') :=
      fun h => numeral_head n h.1 h.2
    rw [if_neg h1, if_neg h2, natOfDigits_numeral, if_pos hn]

theorem splitOn_notMem {sep : Char} {a : Str} (h : sep ∉ a) : splitOn sep a = [a] := by
  induction a with
  | nil => rfl
  | cons c a ih =>
    simp only [List.mem_cons, not_or] at h
    simp [splitOn, Ne.symm h.1, ih h.2]

theorem splitOn_append {sep : Char} {a : Str} (h : sep ∉ a) (r : Str) :
    splitOn sep (a ++ sep :: r) = a :: splitOn sep r := by
  induction a with
  | nil => simp [splitOn]
  | cons c a ih =>
    simp only [List.mem_cons, not_or] at h
    simp [splitOn, Ne.symm h.1, ih h.2]

theorem splitOn_ne_nil (sep : Char) (s : Str) : splitOn sep s ≠ [] := by
  cases s with
  | nil => simp [splitOn]
  | cons c s =>
    simp only [splitOn]
    split
    · simp
    · split <;> simp

theorem splitOn_inv {sep : Char} {s p : Str} {ps : List Str} (h : splitOn sep s = p :: ps) :
    sep ∉ p ∧ ((ps = [] ∧ s = p) ∨ ∃ r, s = p ++ sep :: r ∧ splitOn sep r = ps) := by
  induction s generalizing p ps with
  | nil =>
    simp only [splitOn, List.cons.injEq] at h
    obtain ⟨rfl, rfl⟩ := h
    simp
  | cons c s ih =>
    simp only [splitOn] at h
    split at h
    · rename_i hc
      cases h
      exact ⟨by simp, Or.inr ⟨s, by simp [hc], rfl⟩⟩
    · rename_i hc
      split at h
      · rename_i hs; exact absurd hs (splitOn_ne_nil sep s)
      · rename_i q qs hs
        cases h
        obtain ⟨hq, hr⟩ := ih hs
        refine ⟨by simp [hq, Ne.symm hc], ?_⟩
        rcases hr with ⟨h1, h2⟩ | ⟨r, h1, h2⟩
        · exact Or.inl ⟨h1, by rw [h2]⟩
        · exact Or.inr ⟨r, by rw [h1]; rfl, h2⟩

theorem dot_notMem_numeral (n : Nat) : '.' ∉ numeral n := fun h => by
  have := numeral_digits n _ h; revert this; decide

theorem slash_notMem_numeral (n : Nat) : '/' ∉ numeral n := fun h => by
  have := numeral_digits n _ h; revert this; decide

theorem parseAddr_iff (s : Str) (a : Nat) : parseAddr s = some a ↔ AddrText s a := by
  unfold parseAddr
  constructor
  · intro h
    split at h
    · rename_i w x y z hs
      obtain ⟨_, h1⟩ := splitOn_inv hs
      rcases h1 with ⟨h1, _⟩ | ⟨r1, h1, hs⟩
      · cases h1
      obtain ⟨_, h2⟩ := splitOn_inv hs
      rcases h2 with ⟨h2, _⟩ | ⟨r2, h2, hs⟩
      · cases h2
      obtain ⟨_, h3⟩ := splitOn_inv hs
      rcases h3 with ⟨h3, _⟩ | ⟨r3, h3, hs⟩
      · cases h3
      obtain ⟨_, h4⟩ := splitOn_inv hs
      rcases h4 with ⟨_, h4⟩ | ⟨r4, _, hs⟩
      · subst h4 h3 h2 h1
        simp only [Option.bind_eq_bind, Option.bind_eq_some_iff] at h
        obtain ⟨w', hw, x', hx, y', hy, z', hz, h⟩ := h
        rw [parseOctet_iff] at hw hx hy hz
        refine ⟨w', x', y', z', hw.1, hx.1, hy.1, hz.1, ?_, ?_⟩
        · rw [hw.2, hx.2, hy.2, hz.2]
        · cases h; ring
      · exact absurd hs (splitOn_ne_nil _ _)
    · cases h
  · rintro ⟨w, x, y, z, hw, hx, hy, hz, rfl, rfl⟩
    rw [splitOn_append (dot_notMem_numeral w), splitOn_append (dot_notMem_numeral x),
      splitOn_append (dot_notMem_numeral y), splitOn_notMem (dot_notMem_numeral z)]
    have o : ∀ n, n ≤ 255 → parseOctet (numeral n) = some n := fun n hn =>
      (parseOctet_iff _ _).2 ⟨hn, rfl⟩
    simp only [o w hw, o x hx, o y hy, o z hz, Option.bind_eq_bind, Option.bind_some,
      Option.some.injEq]
    ring

theorem Spec.AddrText.lt {s : Str} {a : Nat} (h : AddrText s a) : a < 2 ^ 32 := by
  obtain ⟨w, x, y, z, hw, hx, hy, hz, _, rfl⟩ := h
  omega

theorem Spec.AddrText.noSlash {s : Str} {a : Nat} (h : AddrText s a) : '/' ∉ s := by
  obtain ⟨w, x, y, z, hw, hx, hy, hz, rfl, _⟩ := h
  simp [slash_notMem_numeral]

theorem parsePrefix_iff (s : Str) (p : Prefix) : parsePrefix s = some p ↔
    ∃ t, AddrText t p.addr ∧ p.bits ≤ 32 ∧ s = t ++ '/' :: numeral p.bits := by
  unfold parsePrefix
  constructor
  · intro h
    split at h
    · rename_i x y hs
      obtain ⟨_, h1⟩ := splitOn_inv hs
      rcases h1 with ⟨h1, _⟩ | ⟨r1, h1, hs⟩
      · cases h1
      obtain ⟨_, h2⟩ := splitOn_inv hs
      rcases h2 with ⟨_, h2⟩ | ⟨r2, _, hs⟩
      · subst h2 h1
        simp only [Option.bind_eq_bind, Option.bind_eq_some_iff] at h
        obtain ⟨a, ha, n, hn, h⟩ := h
        rw [parseAddr_iff] at ha
        rw [parseBits_iff] at hn
        cases h
        exact ⟨x, ha, hn.1, by rw [hn.2]⟩
      · exact absurd hs (splitOn_ne_nil _ _)
    · cases h
  · rintro ⟨t, ht, hb, rfl⟩
    rw [splitOn_append ht.noSlash, splitOn_notMem (slash_notMem_numeral _)]
    simp [(parseAddr_iff t p.addr).2 ht, (parseBits_iff _ p.bits).2 ⟨hb, rfl⟩]

/-! ### blocks -/

theorem contains_iff (p : Prefix) (ip : Nat) (h : ip < 2 ^ 32) :
    p.contains ip = true ↔ Block p.addr p.bits ip := by
  have hx : ∀ a b : Nat, a ^^^ b = 0 ↔ a = b := fun a b =>
    ⟨fun h => by
      have h2 : b = a ^^^ (a ^^^ b) := by rw [← Nat.xor_assoc]; simp
      rw [h2, h]; simp, by rintro rfl; simp⟩
  rw [Prefix.contains, Block, beq_iff_eq, Nat.shiftRight_xor_distrib, hx,
    Nat.shiftRight_eq_div_pow, Nat.shiftRight_eq_div_pow]
  exact ⟨fun e => ⟨h, e⟩, fun e => e.2⟩

theorem maskTo_eq_iff (a b n : Nat) :
    maskTo a n = maskTo b n ↔ a / 2 ^ (32 - n) = b / 2 ^ (32 - n) := by
  simp only [maskTo, Nat.shiftLeft_eq, Nat.shiftRight_eq_div_pow]
  constructor
  · intro h; exact Nat.eq_of_mul_eq_mul_right (Nat.two_pow_pos _) h
  · intro h; rw [h]

theorem div_pow_coarser {a b k j : Nat} (hkj : k ≤ j) (h : a / 2 ^ k = b / 2 ^ k) :
    a / 2 ^ j = b / 2 ^ j := by
  obtain ⟨i, rfl⟩ := Nat.exists_eq_add_of_le hkj
  rw [Nat.pow_add, ← Nat.div_div_eq_div_mul, ← Nat.div_div_eq_div_mul, h]

theorem overlaps_iff (p o : Prefix) (hp : p.addr < 2 ^ 32) (ho : o.addr < 2 ^ 32) :
    p.overlaps o = true ↔ ∃ x, Block p.addr p.bits x ∧ Block o.addr o.bits x := by
  have key : p.overlaps o = true ↔
      p.addr / 2 ^ (32 - min p.bits o.bits) = o.addr / 2 ^ (32 - min p.bits o.bits) := by
    unfold Prefix.overlaps
    by_cases h : p = o
    · simp [h]
    · rw [if_neg h]
      by_cases hn : min p.bits o.bits = 0
      · rw [if_pos hn, hn]
        simp only [Nat.sub_zero, true_iff]
        rw [Nat.div_eq_of_lt hp, Nat.div_eq_of_lt ho]
      · rw [if_neg hn, beq_iff_eq, maskTo_eq_iff]
  rw [key]
  constructor
  · intro h
    rcases le_total p.bits o.bits with hb | hb
    · rw [min_eq_left hb] at h
      exact ⟨o.addr, ⟨ho, h.symm⟩, ho, rfl⟩
    · rw [min_eq_right hb] at h
      exact ⟨p.addr, ⟨hp, rfl⟩, hp, h⟩
  · rintro ⟨x, ⟨_, h1⟩, _, h2⟩
    have h1' := div_pow_coarser (j := 32 - min p.bits o.bits) (by omega) h1
    have h2' := div_pow_coarser (j := 32 - min p.bits o.bits) (by omega) h2
    rw [← h1', h2']

/-! ### extraction -/

theorem digits_iff (n : Nat) (s : Str) :
    Digits n s ↔ s ≠ [] ∧ s.length ≤ n ∧ ∀ c ∈ s, isDig c = true := by
  simp only [Digits, isDig_iff]
  constructor
  · rintro ⟨h1, h2, h3⟩; exact ⟨List.ne_nil_of_length_pos h1, h2, h3⟩
  · rintro ⟨h1, h2, h3⟩; exact ⟨List.length_pos_iff.2 h1, h2, h3⟩

theorem upTo3_some {s d r : Str} (h : upTo3 s = some (d, r)) :
    s = d ++ r ∧ Digits 3 d ∧ (d.length = 3 ∨ ∀ c, r.head? = some c → isDig c = false) := by
  simp only [digits_iff]
  unfold upTo3 at h
  split at h
  · rename_i a s
    split_ifs at h with ha
    split at h
    · rename_i b t
      split_ifs at h with hb
      · split at h
        · rename_i c u
          split_ifs at h with hc <;> (cases h; simp_all)
        · cases h; simp_all
      · cases h; simp_all
    · cases h; simp_all
  · cases h

theorem upTo3_none {s : Str} (h : upTo3 s = none) : ∀ c, s.head? = some c → isDig c = false := by
  unfold upTo3 at h
  split at h
  · rename_i a s
    split_ifs at h with ha
    · split at h
      · split_ifs at h
        split at h
        · split_ifs at h
        · cases h
      · cases h
    · simpa using ha
  · simp

/-- A digit run of at most three characters that is not followed by a digit is what `upTo3` takes. -/
theorem upTo3_run {d r : Str} (hd : Digits 3 d) (hr : ∀ c, r.head? = some c → isDig c = false) :
    upTo3 (d ++ r) = some (d, r) := by
  rw [digits_iff] at hd
  obtain ⟨hne, hl, hall⟩ := hd
  match d, hne, hl with
  | [a], _, _ =>
    have ha := hall a (by simp)
    cases r with
    | nil => simp [upTo3, ha]
    | cons x r => have := hr x rfl; simp [upTo3, ha, this]
  | [a, b], _, _ =>
    have ha := hall a (by simp)
    have hb := hall b (by simp)
    cases r with
    | nil => simp [upTo3, ha, hb]
    | cons x r => have := hr x rfl; simp [upTo3, ha, hb, this]
  | [a, b, c], _, _ =>
    have ha := hall a (by simp)
    have hb := hall b (by simp)
    have hc := hall c (by simp)
    simp [upTo3, ha, hb, hc]

theorem octetDot_iff (s o t : Str) :
    octetDot s = some (o, t) ↔ ∃ d, Digits 3 d ∧ o = d ++ ['.'] ∧ s = d ++ '.' :: t := by
  unfold octetDot
  constructor
  · intro h
    split at h
    · rename_i d u hu
      cases h
      obtain ⟨h1, h2, _⟩ := upTo3_some hu
      exact ⟨d, h2, rfl, h1⟩
    · cases h
  · rintro ⟨d, hd, rfl, rfl⟩
    rw [upTo3_run (r := '.' :: t) hd (by simp; decide)]
    rfl

theorem optSlash_eq (s : Str) : s = (optSlash s).1 ++ (optSlash s).2 := by
  unfold optSlash
  split
  · split
    · split
      · split <;> simp
      · simp
    · simp
  · simp

theorem optSlash_shape (s : Str) :
    (optSlash s).1 = [] ∨ ∃ e, Digits 2 e ∧ (optSlash s).1 = '/' :: e := by
  unfold optSlash
  simp only [digits_iff]
  split
  · rename_i a s
    split
    · rename_i ha
      right
      split
      · rename_i b t
        split
        · rename_i hb; exact ⟨[a, b], by simp [ha, hb], rfl⟩
        · exact ⟨[a], by simp [ha], rfl⟩
      · exact ⟨[a], by simp [ha], rfl⟩
    · left; rfl
  · left; rfl

/-- `optSlash` takes the longest possible suffix. -/
theorem optSlash_longest {e r : Str} (he : Digits 2 e) :
    e.length + 1 ≤ (optSlash ('/' :: (e ++ r))).1.length := by
  rw [digits_iff] at he
  obtain ⟨hne, hl, hall⟩ := he
  match e, hne, hl with
  | [a], _, _ =>
    have ha := hall a (by simp)
    cases r with
    | nil => simp [optSlash, ha]
    | cons x r => by_cases hx : isDig x = true <;> simp [optSlash, ha, hx]
  | [a, b], _, _ =>
    have ha := hall a (by simp)
    have hb := hall b (by simp)
    simp [optSlash, ha, hb]

/-- What `netHere` takes has the right shape. -/
theorem netHere_some {s m r : Str} (h : netHere s = some (m, r)) : s = m ++ r ∧ NetShape m := by
  unfold netHere at h
  split at h
  · cases h
  rename_i a s1 h1
  split at h
  · cases h
  rename_i b s2 h2
  split at h
  · cases h
  rename_i c s3 h3
  split at h
  · cases h
  rename_i d s4 h4
  rw [octetDot_iff] at h1 h2 h3
  obtain ⟨da, hda, rfl, rfl⟩ := h1
  obtain ⟨db, hdb, rfl, rfl⟩ := h2
  obtain ⟨dc, hdc, rfl, rfl⟩ := h3
  obtain ⟨rfl, hdd, _⟩ := upTo3_some h4
  simp only [Option.some.injEq, Prod.mk.injEq] at h
  obtain ⟨rfl, rfl⟩ := h
  constructor
  · conv_lhs => rw [optSlash_eq s4]
    simp
  · exact ⟨da, db, dc, d, (optSlash s4).1, hda, hdb, hdc, hdd, optSlash_shape s4, by simp⟩

/-- Wherever a prefix has the shape, `netHere` takes something at least as long. -/
theorem netHere_of_shape {m r : Str} (h : NetShape m) :
    ∃ m' r', netHere (m ++ r) = some (m', r') ∧ m.length ≤ m'.length := by
  obtain ⟨a, b, c, d, sfx, ha, hb, hc, hd, hs, rfl⟩ := h
  have h1 : octetDot (a ++ '.' :: (b ++ '.' :: (c ++ '.' :: (d ++ sfx))) ++ r) =
      some (a ++ ['.'], b ++ '.' :: (c ++ '.' :: (d ++ (sfx ++ r)))) :=
    (octetDot_iff _ _ _).2 ⟨a, ha, rfl, by simp⟩
  have h2 : octetDot (b ++ '.' :: (c ++ '.' :: (d ++ (sfx ++ r)))) =
      some (b ++ ['.'], c ++ '.' :: (d ++ (sfx ++ r))) :=
    (octetDot_iff _ _ _).2 ⟨b, hb, rfl, by simp⟩
  have h3 : octetDot (c ++ '.' :: (d ++ (sfx ++ r))) = some (c ++ ['.'], d ++ (sfx ++ r)) :=
    (octetDot_iff _ _ _).2 ⟨c, hc, rfl, by simp⟩
  unfold netHere
  simp only [h1, h2, h3]
  -- the digits of the last octet
  have hne : upTo3 (d ++ (sfx ++ r)) ≠ none := by
    intro hn
    have := upTo3_none hn
    rw [digits_iff] at hd
    obtain ⟨hd1, _, hd3⟩ := hd
    cases d with
    | nil => exact hd1 rfl
    | cons x d =>
      have h4 := this x (by simp)
      have h5 := hd3 x (by simp)
      rw [h4] at h5; cases h5
  obtain ⟨⟨dm, s4⟩, hdm⟩ := Option.ne_none_iff_exists'.1 hne
  simp only [hdm]
  refine ⟨_, _, rfl, ?_⟩
  obtain ⟨heq, hdig, hmax⟩ := upTo3_some hdm
  rcases hs with rfl | ⟨e, he, rfl⟩
  · -- no suffix: dm is at least as long as d
    have hlen : d.length ≤ dm.length := by
      rcases hmax with h3 | hnd
      · have := ((digits_iff 3 d).1 hd).2.1; omega
      · by_contra hlt
        have hlt := not_le.1 hlt
        -- the character after dm lies in d and is a digit
        have hpre : d <+: dm ++ s4 := ⟨[] ++ r, by simpa using heq⟩
        have hpre2 : dm <+: d := List.prefix_of_prefix_length_le ⟨s4, rfl⟩ hpre hlt.le
        obtain ⟨t, ht⟩ := hpre2
        have htne : t ≠ [] := by rintro rfl; rw [List.append_nil] at ht; rw [ht] at hlt; omega
        obtain ⟨x, t', rfl⟩ := List.exists_cons_of_ne_nil htne
        have hs4 : s4 = x :: t' ++ r := by
          rw [← ht] at heq
          simp only [List.nil_append, List.append_assoc, List.append_cancel_left_eq] at heq
          simpa using heq.symm
        have h6 := hnd x (by simp [hs4])
        have h7 := ((digits_iff 3 d).1 hd).2.2 x (by rw [← ht]; simp)
        rw [h6] at h7; cases h7
    simp
    omega
  · -- suffix: dm = d
    have hrun := upTo3_run (r := '/' :: e ++ r) hd (by simp; decide)
    rw [hrun] at hdm
    cases hdm
    have := optSlash_longest (r := r) he
    simp only [List.length_append, List.length_cons, List.length_nil, List.cons_append] at this ⊢
    omega

theorem Spec.NetShape.ne_nil {m : Str} (h : NetShape m) : m ≠ [] := by
  obtain ⟨a, b, c, d, sfx, ha, _, _, _, _, rfl⟩ := h
  simp

theorem append3_cons {c : Char} {s pre m post : Str} (h : c :: s = pre ++ m ++ post) :
    (pre = [] ∧ c :: s = m ++ post) ∨ ∃ pre', pre = c :: pre' ∧ s = pre' ++ m ++ post := by
  cases pre with
  | nil => exact Or.inl ⟨rfl, by simpa using h⟩
  | cons x pre => simp at h; exact Or.inr ⟨pre, by rw [h.1], by simpa using h.2⟩

theorem extracted_findNets (n : Nat) (s : Str) (h : s.length ≤ n) :
    Extracted s (findNetsFuel n s) := by
  induction n generalizing s with
  | zero =>
    have : s = [] := List.length_eq_zero_iff.1 (by omega)
    subst this
    refine .none (fun pre m post he hm => ?_)
    simp at he
    exact hm.ne_nil he.2.1
  | succ n ih =>
    cases s with
    | nil =>
      refine .none (fun pre m post he hm => ?_)
      simp at he
      exact hm.ne_nil he.2.1
    | cons c s =>
      simp only [findNetsFuel]
      cases hh : netHere (c :: s) with
      | some p =>
        obtain ⟨m, r⟩ := p
        obtain ⟨he, hm⟩ := netHere_some hh
        have hl : r.length ≤ n := by
          have h1 : (c :: s).length = m.length + r.length := by rw [he]; simp
          have h2 : 0 < m.length := List.length_pos_iff.2 hm.ne_nil
          simp at h1 h; omega
        have hr := ih r hl
        have hx := Extracted.some (pre := []) (m := m) (post := r) hm
          (fun _ _ _ _ _ => by simp)
          (fun m' post' e hm' => by
            obtain ⟨m2, r2, e2, hl2⟩ := netHere_of_shape (r := post') hm'
            rw [← e, ← he, hh] at e2
            cases e2
            exact hl2) hr
        simpa [he] using hx
      | none =>
        have hno : ∀ m post, c :: s = m ++ post → ¬ NetShape m := by
          intro m post e hm
          obtain ⟨m2, r2, e2, _⟩ := netHere_of_shape (r := post) hm
          rw [← e, hh] at e2
          cases e2
        have hr := ih s (by simpa using h)
        show Extracted (c :: s) (findNetsFuel n s)
        revert hr
        generalize findNetsFuel n s = ms
        intro hr
        cases hr with
        | none h0 =>
          refine .none (fun pre m post e hm => ?_)
          rcases append3_cons e with ⟨_, e⟩ | ⟨pre', _, e⟩
          · exact hno m post e hm
          · exact h0 pre' m post e hm
        | @some pre m post ms hm hleft hlong hrest =>
          have := Extracted.some (pre := c :: pre) (m := m) (post := post) hm
            (fun pre' m' post' e hm' => by
              rw [List.cons_append, List.cons_append] at e
              rcases append3_cons e with ⟨_, e⟩ | ⟨pre2, hp2, e⟩
              · exact absurd hm' (hno m' post' e)
              · have := hleft pre2 m' post' e hm'; rw [hp2]; simpa using this)
            hlong hrest
          simpa using this

theorem Spec.Extracted.unique {s : Str} {ms : List Str} (h : Extracted s ms) :
    ∀ {ms'}, Extracted s ms' → ms = ms' := by
  induction h with
  | @none s h =>
    intro ms' h'
    cases h' with
    | none _ => rfl
    | some hm _ _ _ => exact absurd hm (h _ _ _ rfl)
  | @some pre m post ms hm hleft hlong hrest ih =>
    intro ms' h'
    generalize hs : pre ++ m ++ post = s at h'
    cases h' with
    | none h0 => exact absurd hm (h0 _ _ _ hs.symm)
    | @some pre' m' post' ms' hm' hleft' hlong' hrest' =>
      have h1 := hleft _ _ _ hs hm'
      have h2 := hleft' _ _ _ hs.symm hm
      have hlen : pre.length = pre'.length := le_antisymm h1 h2
      rw [List.append_assoc, List.append_assoc] at hs
      have hs := (List.append_inj hs hlen).2
      have h3 := hlong _ _ hs hm'
      have h4 := hlong' _ _ hs.symm hm
      obtain ⟨rfl, rfl⟩ := List.append_inj hs (le_antisymm h4 h3)
      rw [ih hrest']

theorem extracted_iff (s : Str) (ms : List Str) : Extracted s ms ↔ ms = findNets s := by
  constructor
  · intro h; exact h.unique (extracted_findNets s.length s le_rfl)
  · rintro rfl; exact extracted_findNets s.length s le_rfl

theorem netTextMatches_iff (p : Prefix) (hp : p.addr < 2 ^ 32) (t : Str) :
    netTextMatches p t = true ↔ ∃ T x, Denotes t T ∧ T x ∧ Block p.addr p.bits x := by
  unfold netTextMatches
  by_cases hs : '/' ∈ t
  · rw [if_pos hs]
    constructor
    · intro h
      split at h
      · cases h
      · rename_i blk hb
        obtain ⟨u, hu, hn, rfl⟩ := (parsePrefix_iff _ _).1 hb
        obtain ⟨x, h1, h2⟩ := (overlaps_iff p blk hp hu.lt).1 h
        exact ⟨_, x, Or.inr ⟨u, _, _, hu, hn, rfl, rfl⟩, h2, h1⟩
    · rintro ⟨T, x, hT | ⟨u, a, n, hu, hn, rfl, rfl⟩, hx, hb⟩
      · obtain ⟨a, ha, _⟩ := hT
        exact absurd hs ha.noSlash
      · rw [(parsePrefix_iff _ ⟨a, n⟩).2 ⟨u, hu, hn, rfl⟩]
        exact (overlaps_iff p ⟨a, n⟩ hp hu.lt).2 ⟨x, hb, hx⟩
  · rw [if_neg hs]
    constructor
    · intro h
      split at h
      · cases h
      · rename_i a ha
        rw [parseAddr_iff] at ha
        exact ⟨_, a, Or.inl ⟨a, ha, rfl⟩, rfl, (contains_iff p a ha.lt).1 h⟩
    · rintro ⟨T, x, ⟨a, ha, rfl⟩ | ⟨u, a, n, hu, hn, rfl, rfl⟩, hx, hb⟩
      · rw [(parseAddr_iff _ _).2 ha]
        cases hx
        exact (contains_iff p _ ha.lt).2 hb
      · simp at hs

/-- The network matcher refines the specification. -/
theorem nets_iff (p : Prefix) (hp : p.addr < 2 ^ 32) (s : Str) :
    (findNets s).any (netTextMatches p) = true ↔ Mentions s (Block p.addr p.bits) := by
  simp only [List.any_eq_true, netTextMatches_iff p hp, Mentions, extracted_iff]
  constructor
  · rintro ⟨m, hm, T, x, hd, hx, hb⟩; exact ⟨_, m, T, x, rfl, hm, hd, hx, hb⟩
  · rintro ⟨_, m, T, x, rfl, hm, hd, hx, hb⟩; exact ⟨m, hm, T, x, hd, hx, hb⟩

end Aql
