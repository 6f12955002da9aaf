import Verif.Proofs.NetWords
import Verif.Props.Matching
import Verif.Props.Times
/-!
Properties C34 - C36 and C66: networks and strings.
-/

namespace Aql

open Spec

variable {E : Env} {f : List Str} {m m1 m2 m3 : Matcher} {pos pos' : Pos} {d : Json} {op : Op}

/-! ### C34 -/

/-- **C34.** A network literal matches iff some text under the field mentions an address or a block
that shares an address with it. -/
theorem C34_network {sv : Str} {a n : Nat} {p : Pos}
    (h : Ready E (.expr .EQ f [.net sv ⟨a, n⟩ p] pos) m) (hp : Plain d f) :
    Accepts E m d ↔ ∃ s t, ScalarUnder E d f s ∧ TextOf E s t ∧ Mentions t (Block a n) := by
  rw [h.accepts hp]
  simp only [Sat, List.mem_singleton, exists_eq_left, EqHolds]
  constructor
  · rintro ⟨s, hs, t, ht, hm⟩; exact ⟨s, t, hs, ht, hm⟩
  · rintro ⟨s, t, hs, ht, hm⟩; exact ⟨s, hs, t, ht, hm⟩

/-- **C34, C04.** Which texts are network literals: an address stands for itself as a /32, otherwise
an address, a slash and a length of at most 32. -/
theorem C34_literal (b : Str) (p : Pos) (v : Val) :
    newNetVal b p = some v ↔
      (∃ a, AddrText b a ∧ v = .net (b ++ "/32".toList) ⟨a, 32⟩ p) ∨
      (∃ t a n, AddrText t a ∧ n ≤ 32 ∧ b = t ++ '/' :: numeral n ∧ v = .net b ⟨a, n⟩ p) := by
  unfold newNetVal
  dsimp only
  rw [Option.map_eq_some_iff]
  have h32 : "/32".toList = '/' :: numeral 32 := by decide +kernel
  by_cases hs : '/' ∈ b
  · rw [if_pos hs]
    constructor
    · rintro ⟨⟨a, n⟩, h, rfl⟩
      rw [parsePrefix_iff] at h
      obtain ⟨t, ht, hn, he⟩ := h
      exact .inr ⟨t, a, n, ht, hn, he, rfl⟩
    · rintro (⟨a, ha, -⟩ | ⟨t, a, n, ht, hn, he, rfl⟩)
      · exact absurd hs ha.noSlash
      · exact ⟨⟨a, n⟩, (parsePrefix_iff _ _).2 ⟨t, ht, hn, he⟩, rfl⟩
  · rw [if_neg hs]
    constructor
    · rintro ⟨⟨a, n⟩, h, rfl⟩
      rw [parsePrefix_iff] at h
      obtain ⟨t, ht, hn, he⟩ := h
      dsimp only at ht hn he
      rw [h32] at he
      have e1 := splitOn_append hs (numeral 32)
      have e2 := splitOn_append ht.noSlash (numeral n)
      rw [he, e2, splitOn_notMem (slash_notMem_numeral _), splitOn_notMem (slash_notMem_numeral _)] at e1
      simp only [List.cons.injEq, and_true] at e1
      obtain ⟨rfl, h3⟩ := e1
      have hn32 : n = 32 := by
        have b1 := (parseBits_iff (numeral n) n).2 ⟨hn, rfl⟩
        have b2 := (parseBits_iff (numeral 32) 32).2 ⟨le_rfl, rfl⟩
        rw [h3, b2] at b1
        exact (Option.some.inj b1).symm
      subst hn32
      exact .inl ⟨a, ht, rfl⟩
    · rintro (⟨a, ha, rfl⟩ | ⟨t, a, n, ht, hn, rfl, -⟩)
      · exact ⟨⟨a, 32⟩, (parsePrefix_iff _ _).2 ⟨b, ha, le_rfl, by rw [h32]⟩, rfl⟩
      · exact absurd (by simp) hs

/-- **C34.** The block of a bare address is that address alone. -/
theorem C34_single_address {b : Str} {a : Nat} (h : AddrText b a) (x : Nat) :
    Block a 32 x ↔ x = a := by
  have := h.lt
  simp only [Block, Nat.sub_self, pow_zero, Nat.div_one]
  constructor
  · exact fun h => h.2
  · rintro rfl; exact ⟨this, rfl⟩

/-- **C34.** A block `a/n` is the set of addresses with the same leading `n` bits. -/
theorem C34_block_bits {a n x : Nat} :
    Block a n x ↔ x < 2 ^ 32 ∧ ∀ i, 32 - n ≤ i → x.testBit i = a.testBit i := by
  unfold Block
  refine and_congr_right fun _ => ?_
  constructor
  · intro h i hi
    have := congrArg (fun y => Nat.testBit y (i - (32 - n))) h
    simp only [Nat.testBit_div_two_pow] at this
    rwa [Nat.sub_add_cancel hi] at this
  · intro h
    apply Nat.eq_of_testBit_eq
    intro i
    simp only [Nat.testBit_div_two_pow]
    exact h _ (by omega)

-- `a:10.0.0.0/8` matches a text that mentions 10.1.2.3, in every environment
example (hk : E.unescape "a".toList = some "a".toList)
    (ht : E.unescape "from 10.1.2.3 to x".toList = some "from 10.1.2.3 to x".toList) :
    ∃ m, newNetVal "10.0.0.0/8".toList noPosition =
        some (.net "10.0.0.0/8".toList ⟨167772160, 8⟩ noPosition) ∧
      Ready E (.expr .EQ ["a".toList] [.net "10.0.0.0/8".toList ⟨167772160, 8⟩ noPosition] noPosition) m ∧
      Accepts E m (.obj [("a".toList, .str "from 10.1.2.3 to x".toList)]) := by
  have hr : ∃ m, Ready E (.expr .EQ ["a".toList]
      [.net "10.0.0.0/8".toList ⟨167772160, 8⟩ noPosition] noPosition) m := by
    refine ready_of_allOk ⟨by simp [ArityOk], fun _ _ => trivial, by simp, ?_, fun _ _ h => by cases h⟩
      ⟨trivial, by simp [LitsIn, LitOk]⟩ (by simp [LitsIn, ReParses])
    rintro - ⟨h, -⟩
    simp only [List.map_cons, List.map_nil, List.mem_singleton, Val.toStr] at h
    revert h; decide
  obtain ⟨m, hm⟩ := hr
  refine ⟨m, by decide +kernel, hm, ?_⟩
  rw [C34_network hm plain_single]
  refine ⟨_, _, (single_str hk _ _).2 rfl, .str ht, ?_⟩
  rw [← nets_iff ⟨167772160, 8⟩ (by decide)]
  decide +kernel

/-! ### C66 -/

/-- **C66 (partial).** An address or block that stands on its own in a text is found, wherever it is and whatever
else the text contains: a literal that shares an address with it matches. -/
theorem C66_word_found_partial {sv : Str} {a n x : Nat} {p : Pos} {T : Nat → Prop} {pre w post : Str} {s : Json}
    (h : Ready E (.expr .EQ f [.net sv ⟨a, n⟩ p] pos) m) (hp : Plain d f)
    (hs : ScalarUnder E d f s) (ht : TextOf E s (pre ++ w ++ post)) (hw : Denotes w T)
    (hal : StandsAlone pre post) (hx : T x) (hb : Block a n x) : Accepts E m d := by
  rw [C34_network h hp]
  refine ⟨s, _, hs, ht, ?_⟩
  obtain ⟨ms, hms⟩ : ∃ ms, Extracted (pre ++ w ++ post) ms := ⟨_, (extracted_iff _ _).2 rfl⟩
  exact ⟨ms, w, T, x, hms, extracted_word hms rfl (denotes_shape hw) hal, hw, hx, hb⟩

-- the address in the middle of this sentence stands alone, although a version number comes before it
example : StandsAlone "v1.2.3.4.5 from ".toList ". Bye".toList := by
  constructor
  · intro c hc
    have : c = ' ' := by revert hc; decide +revert
    subst this; unfold NetChar; decide
  · intro c hc
    cases hc; decide

/-- **C66 (refuted).** An address that occurs in a text need not be found: the parts found do not overlap,
and digits before it shift them. `a:10.0.0.1` does not match `{"a": "1.10.0.0.1"}`. -/
theorem C66_occurrence_refuted : ∃ m, Ready testEnv (.expr .EQ ["a".toList]
      [.net "10.0.0.1/32".toList ⟨167772161, 32⟩ noPosition] noPosition) m ∧
    newNetVal "10.0.0.1".toList noPosition =
      some (.net "10.0.0.1/32".toList ⟨167772161, 32⟩ noPosition) ∧
    ¬ Accepts testEnv m (.obj [("a".toList, .str ("1.".toList ++ "10.0.0.1".toList))]) := by
  have hr : ∃ m, Ready testEnv (.expr .EQ ["a".toList]
      [.net "10.0.0.1/32".toList ⟨167772161, 32⟩ noPosition] noPosition) m := by
    refine ready_of_allOk ⟨by simp [ArityOk], fun _ _ => trivial, by simp, ?_, fun _ _ h => by cases h⟩
      ⟨trivial, by simp [LitsIn, LitOk]⟩ (by simp [LitsIn, ReParses])
    rintro - ⟨h, -⟩
    simp only [List.map_cons, List.map_nil, List.mem_singleton, Val.toStr] at h
    revert h; decide
  obtain ⟨m, hm⟩ := hr
  refine ⟨m, hm, by decide +kernel, ?_⟩
  rw [C34_network hm plain_single]
  rintro ⟨s, t, hs, ht, hmen⟩
  rw [single_str (by decide +kernel)] at hs
  subst hs
  obtain rfl : t = "1.10.0.0.1".toList := by
    cases ht with
    | str h =>
      have : testEnv.unescape ("1.".toList ++ "10.0.0.1".toList) = some "1.10.0.0.1".toList := by decide +kernel
      rw [this] at h
      cases h
      rfl
  rw [← nets_iff ⟨167772161, 32⟩ (by decide)] at hmen
  revert hmen
  decide +kernel

/-! ### C35 -/

/-- Kelvin sign and long s: the two non-ASCII characters that equal an ASCII letter when case is
ignored. -/
def kelvin : Char := Char.ofNat 0x212A
def longS : Char := Char.ofNat 0x17F

/-- Equality of an ASCII character with any character, ignoring case. -/
def CaseEq (a x : Char) : Prop :=
  (x.toNat < 128 ∧ (a = x ∨ ('a' ≤ a ∧ a ≤ 'z' ∧ x.toNat + 32 = a.toNat) ∨
    ('A' ≤ a ∧ a ≤ 'Z' ∧ x.toNat = a.toNat + 32))) ∨
  (x = kelvin ∧ (a = 'k' ∨ a = 'K')) ∨ (x = longS ∧ (a = 's' ∨ a = 'S'))

/-- Unicode fact needed: no other non-ASCII character folds to an ASCII one. -/
def FoldsApart (E : Env) : Prop :=
  ∀ c : Char, 128 ≤ c.toNat → c ≠ kelvin → c ≠ longS → 128 ≤ (E.fold c).toNat

theorem char_eq_toNat {a b : Char} : a = b ↔ a.toNat = b.toNat :=
  ⟨fun h => h ▸ rfl, fun h => Char.ext (UInt32.toNat_inj.1 h)⟩

theorem asciiLower_toNat (c : Char) :
    (asciiLower c).toNat = if 65 ≤ c.toNat ∧ c.toNat ≤ 90 then c.toNat + 32 else c.toNat := by
  unfold asciiLower
  have : ('A' ≤ c ∧ c ≤ 'Z') ↔ (65 ≤ c.toNat ∧ c.toNat ≤ 90) := by
    rw [char_le_iff, char_le_iff]; rfl
  by_cases h : 65 ≤ c.toNat ∧ c.toNat ≤ 90
  · rw [if_pos (this.2 h), if_pos h]
    have hv : (c.toNat + 32).isValidChar := .inl (by omega)
    rw [Char.ofNat, dif_pos hv]
    rfl
  · rw [if_neg (fun h' => h (this.1 h')), if_neg h]

theorem val_lt_128 (c : Char) : c.val < 128 ↔ c.toNat < 128 := Iff.rfl

theorem val_eq_iff (c : Char) (n : UInt32) : c.val = n ↔ c.toNat = n.toNat :=
  UInt32.toNat_inj.symm

theorem caseEq_iff (hE : FoldsApart E) {a : Char} (ha : a.toNat < 128) (x : Char) :
    foldEq E (asciiLower a) x = true ↔ CaseEq a x := by
  have hl : (asciiLower a).toNat < 128 := by rw [asciiLower_toNat]; split <;> omega
  have hk : foldKey E (asciiLower a) = asciiLower a := by
    unfold foldKey
    rw [if_pos ((val_lt_128 _).2 hl), char_eq_toNat, asciiLower_toNat, asciiLower_toNat]
    split <;> (try split) <;> omega
  unfold foldEq
  rw [beq_iff_eq, hk]
  have ek : kelvin.toNat = 8490 := by decide
  have es : longS.toNat = 383 := by decide
  unfold CaseEq
  simp only [char_le_iff]
  have c1 : 'a'.toNat = 97 := rfl
  have c2 : 'z'.toNat = 122 := rfl
  have c3 : 'A'.toNat = 65 := rfl
  have c4 : 'Z'.toNat = 90 := rfl
  have c5 : 'k'.toNat = 107 := rfl
  have c6 : 'K'.toNat = 75 := rfl
  have c7 : 's'.toNat = 115 := rfl
  have c8 : 'S'.toNat = 83 := rfl
  rw [c1, c2, c3, c4]
  simp only [char_eq_toNat (a := a), char_eq_toNat (a := x), ek, es, c5, c6, c7, c8]
  unfold foldKey
  by_cases h1 : x.toNat < 128
  · rw [if_pos ((val_lt_128 _).2 h1), char_eq_toNat, asciiLower_toNat, asciiLower_toNat]
    split <;> split <;> omega
  · rw [if_neg (fun h => h1 ((val_lt_128 _).1 h))]
    by_cases h2 : x.toNat = 8490
    · rw [if_pos ((val_eq_iff _ _).2 h2), char_eq_toNat, asciiLower_toNat, c5]
      split <;> omega
    · rw [if_neg (fun h => h2 ((val_eq_iff _ _).1 h))]
      by_cases h3 : x.toNat = 383
      · rw [if_pos ((val_eq_iff _ _).2 h3), char_eq_toNat, asciiLower_toNat, c7]
        split <;> omega
      · rw [if_neg (fun h => h3 ((val_eq_iff _ _).1 h))]
        have := hE x (by omega) (fun h => h2 (by rw [h, ek])) (fun h => h3 (by rw [h, es]))
        constructor
        · intro h; rw [← h] at this; omega
        · omega

/-- Lower-case a pattern element. -/
def lowerTok : PTok → PTok
  | .lit c => .lit (asciiLower c)
  | t => t

theorem asciiLower_special {c x : Char} (hx : x.toNat < 65 ∨ (90 < x.toNat ∧ x.toNat < 97) ∨ 122 < x.toNat) :
    asciiLower c = x ↔ c = x := by
  rw [char_eq_toNat, char_eq_toNat, asciiLower_toNat]
  split <;> omega

theorem toks_lower {s : Str} {ts : List PTok} (h : Toks s ts) :
    Toks (s.map asciiLower) (ts.map lowerTok) := by
  have hq : '?'.toNat = 63 := rfl
  have hs : '*'.toNat = 42 := rfl
  have hb : '\\'.toNat = 92 := rfl
  have eq : ∀ c, asciiLower c = '?' ↔ c = '?' := fun c => asciiLower_special (by omega)
  have es : ∀ c, asciiLower c = '*' ↔ c = '*' := fun c => asciiLower_special (by omega)
  have eb : ∀ c, asciiLower c = '\\' ↔ c = '\\' := fun c => asciiLower_special (by omega)
  induction h with
  | nil => exact .nil
  | escOne _ ih =>
    simp only [List.map_cons, (eb _).2, (eq _).2, lowerTok]
    exact .escOne ih
  | escMany _ ih =>
    simp only [List.map_cons, (eb _).2, (es _).2, lowerTok]
    exact .escMany ih
  | one _ ih =>
    simp only [List.map_cons, (eq _).2, lowerTok]
    exact .one ih
  | many _ ih =>
    simp only [List.map_cons, (es _).2, lowerTok]
    exact .many ih
  | @char c s ts h1 h2 h3 _ ih =>
    simp only [List.map_cons, lowerTok]
    refine .char (fun h => h1 ((eq c).1 h)) (fun h => h2 ((es c).1 h)) ?_ ih
    rintro ⟨hc, hh⟩
    refine h3 ⟨(eb c).1 hc, ?_⟩
    cases s with
    | nil => simp at hh
    | cons y s => simpa [eq, es] using hh

theorem toks_ascii {s : Str} {ts : List PTok} (h : Toks s ts) (hs : ∀ c ∈ s, c.toNat < 128) :
    ∀ c, PTok.lit c ∈ ts → c.toNat < 128 := by
  induction h with
  | nil => simp
  | escOne _ ih =>
    intro c hc
    rcases List.mem_cons.1 hc with h | h
    · cases h; decide
    · exact ih (fun x hx => hs x (by simp [hx])) c h
  | escMany _ ih =>
    intro c hc
    rcases List.mem_cons.1 hc with h | h
    · cases h; decide
    · exact ih (fun x hx => hs x (by simp [hx])) c h
  | one _ ih =>
    intro c hc
    rcases List.mem_cons.1 hc with h | h
    · cases h
    · exact ih (fun x hx => hs x (by simp [hx])) c h
  | many _ ih =>
    intro c hc
    rcases List.mem_cons.1 hc with h | h
    · cases h
    · exact ih (fun x hx => hs x (by simp [hx])) c h
  | char _ _ _ _ ih =>
    intro c hc
    rcases List.mem_cons.1 hc with h | h
    · cases h; exact hs _ (by simp)
    · exact ih (fun x hx => hs x (by simp [hx])) c h

theorem instance_lower (hE : FoldsApart E) {ts : List PTok} {xs : Str}
    (hs : ∀ c, PTok.lit c ∈ ts → c.toNat < 128) :
    Instance (fun a b => foldEq E a b = true) (ts.map lowerTok) xs ↔ Instance CaseEq ts xs := by
  induction ts generalizing xs with
  | nil =>
    constructor <;> (intro h; cases h; exact .nil)
  | cons t ts ih =>
    have ih := fun xs => ih (xs := xs) (fun c hc => hs c (by simp [hc]))
    cases t with
    | lit c =>
      have hc := hs c (by simp)
      simp only [List.map_cons, lowerTok]
      constructor
      · intro h; cases h with
        | lit h1 h2 => exact .lit ((caseEq_iff hE hc _).1 h1) ((ih _).1 h2)
      · intro h; cases h with
        | lit h1 h2 => exact .lit ((caseEq_iff hE hc _).2 h1) ((ih _).2 h2)
    | one =>
      simp only [List.map_cons, lowerTok]
      constructor
      · intro h; cases h with
        | one h1 h2 => exact .one h1 ((ih _).1 h2)
      · intro h; cases h with
        | one h1 h2 => exact .one h1 ((ih _).2 h2)
    | many =>
      simp only [List.map_cons, lowerTok]
      constructor
      · intro h; cases h with
        | many h1 h2 => exact .many h1 ((ih _).1 h2)
      · intro h; cases h with
        | many h1 h2 => exact .many h1 ((ih _).2 h2)

theorem toLower_ascii (E : Env) {lit : Str} (h : ∀ c ∈ lit, c.toNat < 128) :
    toLower E lit = lit.map asciiLower := by
  unfold toLower
  apply List.map_congr_left
  intro c hc
  unfold goLower
  rw [if_pos ((val_lt_128 c).2 (h c hc))]

/-- A string literal made of ASCII characters holds of a text. -/
theorem strHolds_ascii (hE : FoldsApart E) {lit : Str} (h : ∀ c ∈ lit, c.toNat < 128) (t : Str) :
    StrHolds E lit t ↔ Occurs CaseEq True lit t := by
  unfold StrHolds
  rw [if_neg]
  · rw [toLower_ascii E h]
    have hb : (∀ c ∈ lit.map asciiLower, c.toNat < 128) ↔ True := by
      simp only [iff_true, List.mem_map]
      rintro c ⟨a, ha, rfl⟩
      have := h a ha
      rw [asciiLower_toNat]; split <;> omega
    unfold Occurs
    rw [hb]
    have ht := toks_toksOf lit
    constructor
    · rintro ⟨ts, pre, mid, post, h1, h2, h3, h4⟩
      have := h1.unique (toks_lower ht)
      subst this
      exact ⟨_, pre, mid, post, ht, h2, (instance_lower hE (toks_ascii ht h)).1 h3, h4⟩
    · rintro ⟨ts, pre, mid, post, h1, h2, h3, h4⟩
      have := h1.unique ht
      subst this
      exact ⟨_, pre, mid, post, toks_lower ht, h2, (instance_lower hE (toks_ascii ht h)).2 h3, h4⟩
  · rintro ⟨⟨c, hc, h'⟩, -⟩
    have := h c hc
    omega

/-- **C35.** An ASCII string literal matches iff, in some text under the field, an instance of the
pattern occurs between word boundaries, ignoring case. -/
theorem C35_wildcards (hE : FoldsApart E) {lit : Str} {p : Pos} (hl : ∀ c ∈ lit, c.toNat < 128)
    (h : Ready E (.expr .EQ f [.str lit p] pos) m) (hp : Plain d f) :
    Accepts E m d ↔
      ∃ s t, ScalarUnder E d f s ∧ TextOf E s t ∧ Occurs CaseEq True lit t := by
  rw [h.accepts hp]
  simp only [Sat, List.mem_singleton, exists_eq_left, EqHolds, strHolds_ascii hE hl]
  constructor
  · rintro ⟨s, hs, t, ht, hm⟩; exact ⟨s, t, hs, ht, hm⟩
  · rintro ⟨s, t, hs, ht, hm⟩; exact ⟨s, hs, t, ht, hm⟩

theorem foldEq_ascii (hE : FoldsApart E) {a : Char} (ha : a.toNat < 128) (x : Char) :
    foldEq E a x = true ↔ CaseEq a x := by
  rw [← caseEq_iff hE ha x]
  have hl : (asciiLower a).toNat < 128 := by rw [asciiLower_toNat]; split <;> omega
  have hk : foldKey E (asciiLower a) = foldKey E a := by
    unfold foldKey
    rw [if_pos ((val_lt_128 _).2 hl), if_pos ((val_lt_128 _).2 ha), char_eq_toNat, asciiLower_toNat,
      asciiLower_toNat]
    split <;> (try split) <;> omega
  unfold foldEq
  rw [hk]

theorem instance_fold (hE : FoldsApart E) {ts : List PTok} {xs : Str}
    (hs : ∀ c, PTok.lit c ∈ ts → c.toNat < 128) :
    Instance (fun a b => foldEq E a b = true) ts xs ↔ Instance CaseEq ts xs := by
  induction ts generalizing xs with
  | nil => constructor <;> (intro h; cases h; exact .nil)
  | cons t ts ih =>
    have ih := fun xs => ih (xs := xs) (fun c hc => hs c (by simp [hc]))
    constructor
    · intro h
      cases h with
      | lit h1 h2 => exact .lit ((foldEq_ascii hE (hs _ (by simp)) _).1 h1) ((ih _).1 h2)
      | one h1 h2 => exact .one h1 ((ih _).1 h2)
      | many h1 h2 => exact .many h1 ((ih _).1 h2)
    · intro h
      cases h with
      | lit h1 h2 => exact .lit ((foldEq_ascii hE (hs _ (by simp)) _).2 h1) ((ih _).2 h2)
      | one h1 h2 => exact .one h1 ((ih _).2 h2)
      | many h1 h2 => exact .many h1 ((ih _).2 h2)

/-- **C35.** A literal with wildcards whose lower-case form is ASCII, although it is not (a Kelvin sign): an
instance of the lower-case form occurs between word boundaries, ignoring case. -/
theorem C35_wildcards_lowered (hE : FoldsApart E) {lit : Str} {p : Pos} (hw : ∃ c ∈ lit, c = '?' ∨ c = '*')
    (hl : ∀ c ∈ toLower E lit, c.toNat < 128) (h : Ready E (.expr .EQ f [.str lit p] pos) m) (hp : Plain d f) :
    Accepts E m d ↔ ∃ s t, ScalarUnder E d f s ∧ TextOf E s t ∧ Occurs CaseEq True (toLower E lit) t := by
  have hs : ∀ t, StrHolds E lit t ↔ Occurs CaseEq True (toLower E lit) t := by
    intro t
    unfold StrHolds
    rw [if_neg (fun h => h.2 hw)]
    have hb : (∀ c ∈ toLower E lit, c.toNat < 128) ↔ True := iff_true_intro hl
    unfold Occurs
    rw [hb]
    constructor
    · rintro ⟨ts, pre, mid, post, h1, h2, h3, h4⟩
      exact ⟨ts, pre, mid, post, h1, h2, (instance_fold hE (toks_ascii h1 hl)).1 h3, h4⟩
    · rintro ⟨ts, pre, mid, post, h1, h2, h3, h4⟩
      exact ⟨ts, pre, mid, post, h1, h2, (instance_fold hE (toks_ascii h1 hl)).2 h3, h4⟩
  rw [h.accepts hp]
  simp only [Sat, List.mem_singleton, exists_eq_left, EqHolds, hs]
  constructor
  · rintro ⟨s, hs, t, ht, hm⟩; exact ⟨s, t, hs, ht, hm⟩
  · rintro ⟨s, t, hs, ht, hm⟩; exact ⟨s, hs, t, ht, hm⟩

/-- **C35.** The one remaining kind of literals, with a character outside ASCII and without wildcards, is
searched for by the library for languages (x/text/search), not by a pattern. -/
theorem C35_no_wildcards_unicode {lit : Str} {p : Pos} (hw : ¬ ∃ c ∈ lit, c = '?' ∨ c = '*')
    (hl : ∃ c ∈ lit, 128 ≤ c.toNat) (h : Ready E (.expr .EQ f [.str lit p] pos) m) (hp : Plain d f) :
    Accepts E m d ↔ ∃ s t, ScalarUnder E d f s ∧ TextOf E s t ∧ E.looseIndex lit t = true := by
  have hs : ∀ t, StrHolds E lit t ↔ E.looseIndex lit t = true := by
    intro t
    unfold StrHolds
    rw [if_pos ⟨hl, hw⟩]
  rw [h.accepts hp]
  simp only [Sat, List.mem_singleton, exists_eq_left, EqHolds, hs]
  constructor
  · rintro ⟨s, hs, t, ht, hm⟩; exact ⟨s, t, hs, ht, hm⟩
  · rintro ⟨s, t, hs, ht, hm⟩; exact ⟨s, hs, t, ht, hm⟩

/-- **C35.** A literal with wildcards and a character that stays outside ASCII: an instance occurs
anywhere (no word boundaries), under the case folding of the library. -/
theorem C35_wildcards_unicode {lit : Str} {p : Pos} (hw : ∃ c ∈ lit, c = '?' ∨ c = '*')
    (hl : ∃ c ∈ toLower E lit, 128 ≤ c.toNat)
    (h : Ready E (.expr .EQ f [.str lit p] pos) m) (hp : Plain d f) :
    Accepts E m d ↔ ∃ s t, ScalarUnder E d f s ∧ TextOf E s t ∧
      Occurs (fun a b => foldEq E a b = true) False (toLower E lit) t := by
  have hb : (∀ c ∈ toLower E lit, c.toNat < 128) ↔ False := by
    simp only [iff_false]
    intro h
    obtain ⟨c, hc, h'⟩ := hl
    have := h c hc
    omega
  rw [h.accepts hp]
  have hs : ∀ t, StrHolds E lit t ↔
      Occurs (fun a b => foldEq E a b = true) False (toLower E lit) t := by
    intro t
    unfold StrHolds
    rw [if_neg (fun h => h.2 hw)]
    unfold Occurs
    rw [hb]
  simp only [Sat, List.mem_singleton, exists_eq_left, EqHolds, hs]
  constructor
  · rintro ⟨s, hs, t, ht, hm⟩; exact ⟨s, t, hs, ht, hm⟩
  · rintro ⟨s, t, hs, ht, hm⟩; exact ⟨s, hs, t, ht, hm⟩

/-- A comparison with one string literal compiles. -/
theorem ready_str (E : Env) (f : List Str) (lit : Str) :
    ∃ m, Ready E (.expr .EQ f [.str lit noPosition] noPosition) m := by
  refine ready_of_allOk ⟨by simp [ArityOk], fun _ _ => trivial, by simp, ?_, fun _ _ h => by cases h⟩
    ⟨trivial, by simp [LitsIn, LitOk]⟩ (by simp [LitsIn, ReParses])
  rintro - ⟨h, -⟩
  simp [Val.toStr, quote] at h

example : FoldsApart testEnv := fun _ h _ _ => h

-- the hypotheses of the other two cases: a Kelvin sign with a wildcard, and an accent without one
example : let E := { testEnv with lower := fun c => if c = kelvin then 'k' else c }
    let lit := kelvin :: "?".toList
    FoldsApart E ∧ (∃ c ∈ lit, c = '?' ∨ c = '*') ∧ (∀ c ∈ toLower E lit, c.toNat < 128) ∧
      ∃ m, Ready E (.expr .EQ ["a".toList] [.str lit noPosition] noPosition) m :=
  ⟨fun _ h _ _ => h, ⟨'?', by decide, .inl rfl⟩, by decide, ready_str _ _ _⟩

example : (¬ ∃ c ∈ "é".toList, c = '?' ∨ c = '*') ∧ (∃ c ∈ "é".toList, 128 ≤ c.toNat) ∧
    ∃ m, Ready testEnv (.expr .EQ ["a".toList] [.str "é".toList noPosition] noPosition) m :=
  ⟨by decide, by decide, ready_str _ _ _⟩

-- `a:"f?o*"` matches "a FOO bar"
example (hE : FoldsApart E) (hk : E.unescape "a".toList = some "a".toList)
    (ht : E.unescape "a FOO bar".toList = some "a FOO bar".toList) :
    ∃ m, Ready E (.expr .EQ ["a".toList] [.str "f?o*".toList noPosition] noPosition) m ∧
      Accepts E m (.obj [("a".toList, .str "a FOO bar".toList)]) := by
  obtain ⟨m, hm⟩ := ready_str E ["a".toList] "f?o*".toList
  refine ⟨m, hm, ?_⟩
  rw [C35_wildcards hE (by decide) hm plain_single]
  refine ⟨_, _, (single_str hk _ _).2 rfl, .str ht, _, "a ".toList, "FOO".toList, " bar".toList,
    toks_toksOf _, by decide, ?_, fun _ => ?_⟩
  · have : toksOf "f?o*".toList = [.lit 'f', .one, .lit 'o', .many] := by decide +kernel
    rw [this]
    exact .lit (.inl (by decide)) (.one (by decide) (.lit (.inl (by decide))
      (.many (run := []) (by simp) .nil)))
  · rw [← isBoundary_iff, ← isBoundary_iff]; decide +kernel

/-! ### C36 -/

/-- Texts that a literal without wildcards and backslashes can stand for have its length. -/
theorem instance_length {eqv : Char → Char → Prop} {ts : List PTok} {xs : Str}
    (h : Instance eqv ts xs) (hm : PTok.many ∉ ts) : xs.length = ts.length := by
  induction h with
  | nil => rfl
  | lit _ _ ih => simp [ih (fun h => hm (by simp [h]))]
  | one _ _ ih => simp [ih (fun h => hm (by simp [h]))]
  | many => simp at hm

theorem toks_plain {s : Str} (h : '\\' ∉ s ∧ '?' ∉ s ∧ '*' ∉ s) : Toks s (s.map .lit) := by
  induction s with
  | nil => exact .nil
  | cons c s ih =>
    simp only [List.mem_cons, not_or] at h
    exact .char (Ne.symm h.2.1.1) (Ne.symm h.2.2.1) (fun h' => h.1.1 h'.1.symm)
      (ih ⟨h.1.2, h.2.1.2, h.2.2.2⟩)

/-- **C36, refuted.** No ASCII literal without wildcards and backslashes that begins with a character
that is not a word character (or is empty) matches the text equal to it. -/
theorem C36_self_match_refuted (hE : FoldsApart E) {raw k rawt lit : Str}
    (hk : E.unescape raw = some k) (ht : E.unescape rawt = some lit)
    (hl : ∀ c ∈ lit, c.toNat < 128) (hp : '\\' ∉ lit ∧ '?' ∉ lit ∧ '*' ∉ lit)
    (hw : ∀ c, lit.head? = some c → ¬ WordChar c)
    (h : Ready E (.expr .EQ [k] [.str lit p] pos) m) :
    ¬ Accepts E m (.obj [(raw, .str rawt)]) := by
  rw [C35_wildcards hE hl h plain_single]
  rintro ⟨s, t, hs, htx, ts, pre, mid, post, h1, h2, h3, h4⟩
  rw [single_str hk] at hs
  subst hs
  cases htx with
  | str htx =>
    rw [ht] at htx; cases htx
    have e := h1.unique (toks_plain hp)
    subst e
    have hlen := instance_length h3 (by simp)
    rw [List.length_map] at hlen
    have hl2 := congrArg List.length h2
    simp only [List.length_append] at hl2
    have : pre = [] := List.length_eq_zero_iff.1 (by omega)
    subst this
    have : post = [] := List.length_eq_zero_iff.1 (by omega)
    subst this
    rw [List.append_nil, List.nil_append] at h2
    subst h2
    have := (h4 trivial).1
    unfold WordBoundary at this
    apply this
    simp only [List.getLast?_nil, reduceCtorEq, false_and, exists_false, false_iff, List.append_nil]
    rintro ⟨c, hc, hcw⟩
    exact hw c hc hcw

-- the witness of the property list: "(food)"
example (hE : FoldsApart E) (hk : E.unescape "a".toList = some "a".toList)
    (ht : E.unescape "(food)".toList = some "(food)".toList) :
    ∃ m, Ready E (.expr .EQ ["a".toList] [.str "(food)".toList noPosition] noPosition) m ∧
      ¬ Accepts E m (.obj [("a".toList, .str "(food)".toList)]) := by
  obtain ⟨m, hm⟩ := ready_str E ["a".toList] "(food)".toList
  refine ⟨m, hm, C36_self_match_refuted hE hk ht (by decide) (by decide) ?_ hm⟩
  intro c hc
  have : c = '(' := by simpa using hc.symm
  subst this
  rw [WordChar]; decide

theorem caseEq_refl {c : Char} (h : c.toNat < 128) : CaseEq c c := .inl ⟨h, .inl rfl⟩

theorem instance_self {s : Str} {ts : List PTok} (h : Toks s ts) (hb : '\\' ∉ s)
    (hl : ∀ c ∈ s, c.toNat < 128) : Instance CaseEq ts s := by
  induction h with
  | nil => exact .nil
  | escOne => simp at hb
  | escMany => simp at hb
  | one _ ih =>
    exact .one (by decide) (ih (fun h => hb (by simp [h])) (fun c hc => hl c (by simp [hc])))
  | @many s ts _ ih =>
    exact .many (run := ['*']) (by decide) (ih (fun h => hb (by simp [h])) (fun c hc => hl c (by simp [hc])))
  | char _ _ _ _ ih =>
    exact .lit (caseEq_refl (hl _ (by simp)))
      (ih (fun h => hb (by simp [h])) (fun c hc => hl c (by simp [hc])))

/-- **C36, the part that holds.** An ASCII literal that begins and ends with a word character and has
no backslash matches every document with a text under the field that contains it between word
boundaries; in particular the text equal to it. Missing: other literals, see
`C36_self_match_refuted`. -/
theorem C36_self_match_partial (hE : FoldsApart E) {lit pre post : Str} {p : Pos}
    (hl : ∀ c ∈ lit, c.toNat < 128) (hb : '\\' ∉ lit)
    (hfirst : ∃ c, lit.head? = some c ∧ WordChar c) (hlast : ∃ c, lit.getLast? = some c ∧ WordChar c)
    (hpre : ∀ c, pre.getLast? = some c → ¬ WordChar c) (hpost : ∀ c, post.head? = some c → ¬ WordChar c)
    (h : Ready E (.expr .EQ f [.str lit p] pos) m) (hp : Plain d f)
    {s : Json} (hs : ScalarUnder E d f s) (ht : TextOf E s (pre ++ lit ++ post)) : Accepts E m d := by
  rw [C35_wildcards hE hl h hp]
  refine ⟨s, _, hs, ht, _, pre, lit, post, toks_toksOf lit, rfl,
    instance_self (toks_toksOf lit) hb hl, fun _ => ⟨?_, ?_⟩⟩
  · unfold WordBoundary
    have : ∃ c, (lit ++ post).head? = some c ∧ WordChar c := by
      obtain ⟨c, hc, hw⟩ := hfirst
      exact ⟨c, by rw [List.head?_append, hc]; rfl, hw⟩
    intro hiff
    obtain ⟨c, hc, hw⟩ := hiff.2 this
    exact hpre c hc hw
  · unfold WordBoundary
    have : ∃ c, (pre ++ lit).getLast? = some c ∧ WordChar c := by
      obtain ⟨c, hc, hw⟩ := hlast
      exact ⟨c, by rw [List.getLast?_append, hc]; rfl, hw⟩
    intro hiff
    obtain ⟨c, hc, hw⟩ := hiff.1 this
    exact hpost c hc hw

example : ('\\' ∉ "food".toList) ∧ (∃ c, "food".toList.head? = some c ∧ WordChar c) ∧
    (∃ c, "food".toList.getLast? = some c ∧ WordChar c) :=
  ⟨by decide, ⟨'f', by decide, by unfold WordChar; decide⟩, ⟨'d', by decide, by unfold WordChar; decide⟩⟩

end Aql
