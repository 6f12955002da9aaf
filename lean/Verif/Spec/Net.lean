import Verif.Model.Basic
/-!
Independent specification of IPv4 addresses and blocks, and of the addresses found in a text.
-/

namespace Aql.Spec

/-- Between one and `n` decimal digits. -/
def Digits (n : Nat) (s : Str) : Prop :=
  1 ≤ s.length ∧ s.length ≤ n ∧ ∀ c ∈ s, '0' ≤ c ∧ c ≤ '9'

/-- Text with the shape of a dotted quad, optionally followed by `/` and one or two digits. -/
def NetShape (m : Str) : Prop :=
  ∃ a b c d sfx, Digits 3 a ∧ Digits 3 b ∧ Digits 3 c ∧ Digits 3 d ∧
    (sfx = [] ∨ ∃ e, Digits 2 e ∧ sfx = '/' :: e) ∧
    m = a ++ '.' :: (b ++ '.' :: (c ++ '.' :: (d ++ sfx)))

/-- The network-shaped parts of a text, found from left to right without overlap, each as early and
then as long as possible. -/
inductive Extracted : Str → List Str → Prop
  | none {s} : (∀ pre m post, s = pre ++ m ++ post → ¬ NetShape m) → Extracted s []
  | some {pre m post ms} : NetShape m →
      (∀ pre' m' post', pre ++ m ++ post = pre' ++ m' ++ post' → NetShape m' →
        pre.length ≤ pre'.length) →
      (∀ m' post', m ++ post = m' ++ post' → NetShape m' → m'.length ≤ m.length) →
      Extracted post ms → Extracted (pre ++ m ++ post) (m :: ms)

/-- Decimal numeral without leading zeros. -/
def numeral (n : Nat) : Str := Nat.toDigits 10 n

/-- The text denotes the IPv4 address `a`. -/
def AddrText (s : Str) (a : Nat) : Prop :=
  ∃ w x y z, w ≤ 255 ∧ x ≤ 255 ∧ y ≤ 255 ∧ z ≤ 255 ∧
    s = numeral w ++ '.' :: (numeral x ++ '.' :: (numeral y ++ '.' :: numeral z)) ∧
    a = w * 2 ^ 24 + x * 2 ^ 16 + y * 2 ^ 8 + z

/-- The addresses of the block `a/n`: those that agree with `a` in the first `n` bits. -/
def Block (a n : Nat) : Nat → Prop :=
  fun x => x < 2 ^ 32 ∧ x / 2 ^ (32 - n) = a / 2 ^ (32 - n)

/-- The set of addresses a text denotes: one address, or a block in CIDR notation. -/
def Denotes (s : Str) (S : Nat → Prop) : Prop :=
  (∃ a, AddrText s a ∧ S = fun x => x = a) ∨
  (∃ t a n, AddrText t a ∧ n ≤ 32 ∧ s = t ++ '/' :: numeral n ∧ S = Block a n)

/-- The text mentions an address or block that shares an address with `S`. -/
def Mentions (text : Str) (S : Nat → Prop) : Prop :=
  ∃ ms m T x, Extracted text ms ∧ m ∈ ms ∧ Denotes m T ∧ T x ∧ S x

end Aql.Spec
