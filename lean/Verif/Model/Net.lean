import Verif.Model.Basic
/-!
`net/netip` for IPv4, as used by `NewNetVal` and `exprNet`. An address is a number below 2^32.
Only dotted-quad texts can reach these functions (grammar rule `IPValue`, regexp `getNets`).
-/

namespace Aql

/-- `netip.Prefix` with an IPv4 address (not normalised: host bits may be set). -/
structure Prefix where
  addr : Nat
  bits : Nat
  deriving DecidableEq, Repr

/-- One octet of `netip.ParseAddr`: 1-3 digits, no leading zero, at most 255. -/
def parseOctet (s : Str) : Option Nat :=
  if s = [] ∨ ¬ s.all isDig ∨ 3 < s.length then none
  else if 1 < s.length ∧ s.head? = some '0' then none
  else if natOfDigits s ≤ 255 then some (natOfDigits s) else none

/-- Split at a separator character. -/
def splitOn (sep : Char) : Str → List Str
  | [] => [[]]
  | c :: s =>
    if c = sep then [] :: splitOn sep s
    else
      match splitOn sep s with
      | [] => [[c]]
      | p :: ps => (c :: p) :: ps

/-- `netip.ParseAddr` on IPv4 text. -/
def parseAddr (s : Str) : Option Nat :=
  match splitOn '.' s with
  | [a, b, c, d] => do
    let a ← parseOctet a
    let b ← parseOctet b
    let c ← parseOctet c
    let d ← parseOctet d
    some (((a * 256 + b) * 256 + c) * 256 + d)
  | _ => none

/-- Prefix length of `netip.ParsePrefix`: digits, no leading zero unless it is the only digit, at
most 32. Older Go releases used `strconv.Atoi` here, which also takes leading zeros and a sign. -/
def parseBits (s : Str) : Option Nat :=
  if s = [] ∨ ¬ s.all isDig then none
  else if 1 < s.length ∧ s.head? = some '0' then none
  else if natOfDigits s ≤ 32 then some (natOfDigits s) else none

/-- `netip.ParsePrefix` on IPv4 text. -/
def parsePrefix (s : Str) : Option Prefix :=
  match splitOn '/' s with
  | [a, b] => do
    let a ← parseAddr a
    let n ← parseBits b
    some ⟨a, n⟩
  | _ => none

/-- `netip.Prefix.Contains` for IPv4: xor the addresses and shift away the host bits. -/
def Prefix.contains (p : Prefix) (ip : Nat) : Bool :=
  (ip ^^^ p.addr) >>> (32 - p.bits) == 0

/-- `netip.Addr.Prefix(n)`: the address with host bits cleared. -/
def maskTo (ip n : Nat) : Nat := (ip >>> (32 - n)) <<< (32 - n)

/-- `netip.Prefix.Overlaps`. -/
def Prefix.overlaps (p o : Prefix) : Bool :=
  if p = o then true
  else
    let n := min p.bits o.bits
    if n = 0 then true else maskTo p.addr n == maskTo o.addr n

end Aql
