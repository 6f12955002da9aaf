import Verif.Model.Peg
import Verif.Spec.Text
/-!
The decoder of the parser against the encoder of Lean's standard library.
-/

namespace Aql

open Spec

theorem val_ofNat {n : Nat} (h : n.isValidChar) : (Char.ofNat n).val.toNat = n := by
  unfold Char.ofNat
  rw [dif_pos h]
  rfl

theorem ofNat_val (c : Char) : Char.ofNat c.val.toNat = c := Char.ofNat_toNat c

theorem val_valid (c : Char) : c.val.toNat < 0xd800 ∨ 0xdfff < c.val.toNat ∧ c.val.toNat < 0x110000 :=
  c.valid

theorem u8_toNat {n : Nat} (h : n < 256) : (UInt8.ofNat n).toNat = n := by
  rw [UInt8.toNat_ofNat']; omega

theorem u8_eq {n : Nat} {b : UInt8} (h : n = b.toNat) : UInt8.ofNat n = b := by
  subst h; simp

/-- Decoding the encoding of a character. -/
theorem decodeRune_enc (ch : Char) (bs : List UInt8) : ∃ b t, String.utf8EncodeChar ch ++ bs = b :: t ∧
    decodeRune b t = (.ok ch, bs) := by
  have hv := val_valid ch
  have hch := ofNat_val ch
  generalize hn : ch.val.toNat = n at hv hch
  unfold String.utf8EncodeChar
  simp only [hn]
  by_cases h1 : n ≤ 0x7f
  · rw [if_pos h1]
    simp only [List.cons_append, List.nil_append]
    refine ⟨_, _, rfl, ?_⟩
    unfold decodeRune
    dsimp only
    rw [u8_toNat (by omega), if_pos (by omega), hch]
  rw [if_neg h1]
  by_cases h2 : n ≤ 0x7ff
  · rw [if_pos h2]
    simp only [List.cons_append, List.nil_append]
    refine ⟨_, _, rfl, ?_⟩
    have e1 := u8_toNat (n := n / 64 % 32 + 192) (by omega)
    have e2 := u8_toNat (n := n % 64 + 128) (by omega)
    generalize UInt8.ofNat (n / 64 % 32 + 192) = b1 at e1 ⊢
    generalize UInt8.ofNat (n % 64 + 128) = b2 at e2 ⊢
    unfold decodeRune
    dsimp only
    rw [if_neg (by omega), if_neg (by omega), if_pos (by omega),
      if_pos (by simp only [inRange, Bool.and_eq_true, decide_eq_true_eq]; omega)]
    rw [show (b1.toNat - 192) * 64 + (b2.toNat - 128) = n by omega, hch]
  rw [if_neg h2]
  by_cases h3 : n ≤ 0xffff
  · rw [if_pos h3]
    simp only [List.cons_append, List.nil_append]
    refine ⟨_, _, rfl, ?_⟩
    have e1 := u8_toNat (n := n / 4096 % 16 + 224) (by omega)
    have e2 := u8_toNat (n := n / 64 % 64 + 128) (by omega)
    have e3 := u8_toNat (n := n % 64 + 128) (by omega)
    generalize UInt8.ofNat (n / 4096 % 16 + 224) = b1 at e1 ⊢
    generalize UInt8.ofNat (n / 64 % 64 + 128) = b2 at e2 ⊢
    generalize UInt8.ofNat (n % 64 + 128) = b3 at e3 ⊢
    unfold decodeRune
    dsimp only
    rw [if_neg (by omega), if_neg (by omega), if_neg (by omega), if_pos (by omega), if_pos ?_]
    · rw [show (b1.toNat - 224) * 4096 + (b2.toNat - 128) * 64 + (b3.toNat - 128) = n by omega, hch]
    · simp only [inRange, Bool.and_eq_true, decide_eq_true_eq]
      refine ⟨⟨?_, ?_⟩, by omega, by omega⟩ <;> split <;> omega
  · rw [if_neg h3]
    simp only [List.cons_append, List.nil_append]
    refine ⟨_, _, rfl, ?_⟩
    have e1 := u8_toNat (n := n / 262144 % 8 + 240) (by omega)
    have e2 := u8_toNat (n := n / 4096 % 64 + 128) (by omega)
    have e3 := u8_toNat (n := n / 64 % 64 + 128) (by omega)
    have e4 := u8_toNat (n := n % 64 + 128) (by omega)
    generalize UInt8.ofNat (n / 262144 % 8 + 240) = b1 at e1 ⊢
    generalize UInt8.ofNat (n / 4096 % 64 + 128) = b2 at e2 ⊢
    generalize UInt8.ofNat (n / 64 % 64 + 128) = b3 at e3 ⊢
    generalize UInt8.ofNat (n % 64 + 128) = b4 at e4 ⊢
    unfold decodeRune
    dsimp only
    rw [if_neg (by omega), if_neg (by omega), if_neg (by omega), if_neg (by omega), if_pos ?_]
    · rw [show (b1.toNat - 240) * 262144 + (b2.toNat - 128) * 4096 + (b3.toNat - 128) * 64 +
        (b4.toNat - 128) = n by omega, hch]
    · simp only [inRange, Bool.and_eq_true, decide_eq_true_eq]
      refine ⟨⟨?_, ?_⟩, ⟨by omega, by omega⟩, by omega, by omega⟩ <;> split <;> omega

/-- What decodes is the encoding of the character. -/
theorem decodeRune_ok {b : UInt8} {bs rest : List UInt8} {ch : Char}
    (h : decodeRune b bs = (.ok ch, rest)) : b :: bs = String.utf8EncodeChar ch ++ rest := by
  unfold decodeRune at h
  simp only [inRange, Bool.and_eq_true, decide_eq_true_eq] at h
  by_cases h1 : b.toNat < 0x80
  · rw [if_pos h1] at h
    simp only [Prod.mk.injEq, Sym.ok.injEq] at h
    obtain ⟨rfl, rfl⟩ := h
    unfold String.utf8EncodeChar
    simp only [val_ofNat (n := b.toNat) (Or.inl (by omega))]
    rw [if_pos (by omega), u8_eq rfl]; rfl
  rw [if_neg h1] at h
  by_cases h2 : b.toNat < 0xC2 ∨ 0xF4 < b.toNat
  · rw [if_pos h2] at h; simp at h
  rw [if_neg h2] at h
  by_cases h3 : b.toNat < 0xE0
  · rw [if_pos h3] at h
    cases bs with
    | nil => simp at h
    | cons c bs =>
      dsimp only at h
      split at h
      · rename_i hc
        simp only [Prod.mk.injEq, Sym.ok.injEq] at h
        obtain ⟨rfl, rfl⟩ := h
        unfold String.utf8EncodeChar
        simp only [val_ofNat (n := (b.toNat - 0xC0) * 64 + (c.toNat - 0x80)) (Or.inl (by omega))]
        rw [if_neg (by omega), if_pos (by omega), u8_eq (b := b) (by omega), u8_eq (b := c) (by omega)]
        rfl
      · simp at h
  rw [if_neg h3] at h
  by_cases h4 : b.toNat < 0xF0
  · rw [if_pos h4] at h
    cases bs with
    | nil => simp at h
    | cons c bs =>
      cases bs with
      | nil => simp at h
      | cons d bs =>
        dsimp only at h
        by_cases hc : ((if b.toNat = 0xE0 then 0xA0 else 0x80) ≤ c.toNat ∧
            c.toNat ≤ (if b.toNat = 0xED then 0x9F else 0xBF)) ∧ 0x80 ≤ d.toNat ∧ d.toNat ≤ 0xBF
        · rw [if_pos hc] at h
          simp only [Prod.mk.injEq, Sym.ok.injEq] at h
          obtain ⟨rfl, rfl⟩ := h
          obtain ⟨⟨h5, h6⟩, h7, h8⟩ := hc
          have h9 : 0x80 ≤ c.toNat ∧ c.toNat ≤ 0xBF := by
            constructor
            · split at h5 <;> omega
            · split at h6 <;> omega
          have hlo : 0x800 ≤ (b.toNat - 0xE0) * 4096 + (c.toNat - 0x80) * 64 + (d.toNat - 0x80) := by
            split at h5 <;> omega
          have hval : Nat.isValidChar
              ((b.toNat - 0xE0) * 4096 + (c.toNat - 0x80) * 64 + (d.toNat - 0x80)) := by
            unfold Nat.isValidChar
            split at h6 <;> omega
          unfold String.utf8EncodeChar
          simp only [val_ofNat hval]
          rw [if_neg (by omega), if_neg (by omega), if_pos (by omega), u8_eq (b := b) (by omega),
            u8_eq (b := c) (by omega), u8_eq (b := d) (by omega)]
          rfl
        · rw [if_neg hc] at h; simp at h
  · rw [if_neg h4] at h
    cases bs with
    | nil => simp at h
    | cons c bs =>
      cases bs with
      | nil => simp at h
      | cons d bs =>
        cases bs with
        | nil => simp at h
        | cons e bs =>
          dsimp only at h
          by_cases hc : ((if b.toNat = 0xF0 then 0x90 else 0x80) ≤ c.toNat ∧
              c.toNat ≤ (if b.toNat = 0xF4 then 0x8F else 0xBF)) ∧
              (0x80 ≤ d.toNat ∧ d.toNat ≤ 0xBF) ∧ 0x80 ≤ e.toNat ∧ e.toNat ≤ 0xBF
          · rw [if_pos hc] at h
            simp only [Prod.mk.injEq, Sym.ok.injEq] at h
            obtain ⟨rfl, rfl⟩ := h
            obtain ⟨⟨h5, h6⟩, ⟨h7, h8⟩, h9, h10⟩ := hc
            have h11 : 0x80 ≤ c.toNat ∧ c.toNat ≤ 0xBF := by
              constructor
              · split at h5 <;> omega
              · split at h6 <;> omega
            have hlo : 0x10000 ≤ (b.toNat - 0xF0) * 262144 + (c.toNat - 0x80) * 4096 +
                (d.toNat - 0x80) * 64 + (e.toNat - 0x80) := by
              split at h5 <;> omega
            have hval : Nat.isValidChar ((b.toNat - 0xF0) * 262144 + (c.toNat - 0x80) * 4096 +
                (d.toNat - 0x80) * 64 + (e.toNat - 0x80)) := by
              unfold Nat.isValidChar
              split at h6 <;> omega
            unfold String.utf8EncodeChar
            simp only [val_ofNat hval]
            rw [if_neg (by omega), if_neg (by omega), if_neg (by omega), u8_eq (b := b) (by omega),
              u8_eq (b := c) (by omega), u8_eq (b := d) (by omega), u8_eq (b := e) (by omega)]
            rfl
          · rw [if_neg hc] at h; simp at h

/-- The decoder undoes the encoder. -/
theorem decode_utf8 (s : Str) : decode (utf8 s) = s.map Sym.ok := by
  induction s with
  | nil => unfold decode utf8; rfl
  | cons c s ih =>
    obtain ⟨b, t, h1, h2⟩ := decodeRune_enc c (utf8 s)
    have : utf8 (c :: s) = b :: t := by rw [← h1]; rfl
    rw [this]
    unfold decode
    rw [h2]
    simp [ih]

/-- Only encodings decode without an undecodable byte. -/
theorem decode_ok : ∀ {bs : List UInt8} {s : Str}, decode bs = s.map Sym.ok → bs = utf8 s
  | [], s, h => by
    unfold decode at h
    cases s with
    | nil => rfl
    | cons c s => simp at h
  | b :: bs, s, h => by
    unfold decode at h
    cases s with
    | nil => simp at h
    | cons c s =>
      simp only [List.map_cons, List.cons.injEq] at h
      rcases hd : decodeRune b bs with ⟨x, rest⟩
      rw [hd] at h
      obtain ⟨rfl, h'⟩ := h
      have hlen : rest.length ≤ bs.length := by simpa [hd] using decodeRune_length b bs
      dsimp only at h'
      rw [decodeRune_ok hd, decode_ok h']
      rfl
termination_by bs => bs.length
decreasing_by simp; omega

theorem decodeRune_width (b : UInt8) (bs : List UInt8) :
    (decodeRune b bs).1.width + (decodeRune b bs).2.length = bs.length + 1 := by
  rcases hd : decodeRune b bs with ⟨x, rest⟩
  cases x with
  | ok ch =>
    have := congrArg List.length (decodeRune_ok hd)
    simp only [List.length_cons, List.length_append, String.length_utf8EncodeChar] at this
    simp only [Sym.width]; omega
  | bad b' =>
    have : rest = bs := by
      unfold decodeRune at hd
      dsimp only at hd
      repeat' split at hd
      all_goals first
        | (simp only [Prod.mk.injEq] at hd; exact hd.2.symm)
        | simp at hd
    subst this
    simp [Sym.width]; omega

/-- The widths of the symbols add up to the length of the text. -/
theorem decode_width : ∀ bs : List UInt8, ((decode bs).map Sym.width).sum = bs.length
  | [] => by unfold decode; rfl
  | b :: bs => by
    have hlen := decodeRune_length b bs
    have hw := decodeRune_width b bs
    unfold decode
    simp only [List.map_cons, List.sum_cons, decode_width (decodeRune b bs).2, List.length_cons]
    omega
termination_by bs => bs.length
decreasing_by simp; omega

end Aql
