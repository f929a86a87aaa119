import Verif.Base.Res
import Verif.Base.Bits
/-!
# The part of Go's standard library package `net` (and `bytes`, `math/bits`) the repository uses

These definitions model the Go standard library (go 1.19, see `/repo/go.mod:3`), not repository code;
they are part of the trusted base.  `net.IP` and `net.IPMask` are byte slices.
-/
namespace Uip

/-- `net.IP` (Go std): a byte slice, 4 or 16 bytes when it denotes an address. -/
abbrev IP := List UInt8

/-- `net.IPNet` (Go std). -/
structure IPNet where
  ip : IP
  mask : Bytes
  deriving DecidableEq, Repr

/-- `net.v4InV6Prefix` (Go std): `00..00 ff ff`. -/
def v4InV6Prefix : Bytes := [0, 0, 0, 0, 0, 0, 0, 0, 0, 0, 0xff, 0xff]

/-- `net.IPv4(a,b,c,d)` (Go std): the 16-byte form. -/
def goIPv4 (a b c d : UInt8) : IP := v4InV6Prefix ++ [a, b, c, d]

/-- `net.IPv4zero`, `net.IPv6zero` (Go std). -/
def IPv4zero : IP := goIPv4 0 0 0 0
def IPv6zero : IP := List.replicate 16 0

/-- `net.IP.To4` (Go std); `none` is Go's nil. -/
def To4 (ip : IP) : Option IP :=
  if ip.length = 4 then some ip
  else if ip.length = 16 ∧ ip.take 12 = v4InV6Prefix then some (ip.drop 12)
  else none

/-- `net.IP.To16` (Go std); `none` is Go's nil. -/
def To16 (ip : IP) : Option IP :=
  if ip.length = 4 then some (v4InV6Prefix ++ ip)
  else if ip.length = 16 then some ip
  else none

/-- `net.IP.Equal` (Go std). -/
def ipEqual (a b : IP) : Bool :=
  if a.length = b.length then a == b
  else if a.length = 4 ∧ b.length = 16 then b.take 12 == v4InV6Prefix && a == b.drop 12
  else if a.length = 16 ∧ b.length = 4 then a.take 12 == v4InV6Prefix && a.drop 12 == b
  else false

/-- Loop of `net.CIDRMask` (Go std): `l` bytes, `n` ones left. -/
def cidrMaskLoop : Nat → Nat → Bytes
  | 0, _ => []
  | l + 1, n => if 8 ≤ n then 0xff :: cidrMaskLoop l (n - 8)
                else (~~~ (0xff >>> (UInt8.ofNat n))) :: cidrMaskLoop l 0

/-- `net.CIDRMask(ones, bits)` (Go std); `none` is nil. -/
def CIDRMask (ones : Int) (nbits : Nat) : Option Bytes :=
  if nbits ≠ 32 ∧ nbits ≠ 128 then none
  else if ones < 0 ∨ (nbits : Int) < ones then none
  else some (cidrMaskLoop (nbits / 8) ones.toNat)

/-- Inner loop of `net.simpleMaskLength` (Go std): count leading ones of a byte, rest must be 0;
at most 8 iterations. -/
def leadOnes : Nat → UInt8 → Nat → Option Nat
  | 0, v, n => if v = 0 then some n else none
  | f + 1, v, n => if v &&& 0x80 ≠ 0 then leadOnes f (v <<< 1) (n + 1)
                   else if v = 0 then some n else none

/-- `net.simpleMaskLength` (Go std); `none` is -1. -/
def simpleMaskLength : Bytes → Option Nat
  | [] => some 0
  | v :: rest =>
    if v = 0xff then (simpleMaskLength rest).map (· + 8)
    else match leadOnes 8 v 0 with
      | none => none
      | some n => if rest.all (· == 0) then some n else none

/-- `net.IPMask.Size` (Go std). -/
def maskSize (m : Bytes) : Nat × Nat :=
  match simpleMaskLength m with
  | none => (0, 0)
  | some n => (n, 8 * m.length)

/-- `net.IP.Mask` (Go std); `none` is nil. -/
def ipMask (ip : IP) (mask : Bytes) : Option IP :=
  let mask := if mask.length = 16 ∧ ip.length = 4 ∧ (mask.take 12).all (· == 0xff) then mask.drop 12 else mask
  let ip := if mask.length = 4 ∧ ip.length = 16 ∧ ip.take 12 = v4InV6Prefix then ip.drop 12 else ip
  if ip.length ≠ mask.length then none
  else some (List.zipWith (· &&& ·) ip mask)

/-- `bytes.Compare(a, b) < 0` (Go std): lexicographic order. -/
def bytesLt : Bytes → Bytes → Bool
  | _, [] => false
  | [], _ :: _ => true
  | a :: as, b :: bs => if a < b then true else if b < a then false else bytesLt as bs

/-- `bits.LeadingZeros8` (Go std). -/
def leadingZeros8 (x : UInt8) : Nat := if x = 0 then 8 else 7 - x.toNat.log2

/-- Loop behind `bits.TrailingZeros` of a non-zero byte value (Go std). -/
def trailingZerosLoop : Nat → Nat → Nat
  | 0, _ => 0
  | f + 1, x => if x % 2 = 1 then 0 else 1 + trailingZerosLoop f (x / 2)

/-- `bits.TrailingZeros(uint(b))` for a byte (Go std); 64 for zero. -/
def trailingZeros (x : UInt8) : Nat := if x = 0 then 64 else trailingZerosLoop 8 x.toNat

end Uip
