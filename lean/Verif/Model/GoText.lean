import Verif.Model.GoNet
import Verif.Model.GoStr
/-!
# Text forms of addresses, networks and numbers (Go std: `net`, `strconv`, `fmt`)

Go standard library (go 1.19), not repository code; part of the trusted base.
-/
namespace Uip

/-- Digits of a number, most significant first, at least one (`fuel` bounds their number; `n + 1` is enough). -/
def digitsAux (b : Nat) : Nat → Nat → List Nat
  | 0, _ => []
  | f + 1, n => if n < b then [n] else digitsAux b f (n / b) ++ [n % b]

def digits (b n : Nat) : List Nat := digitsAux b (n + 1) n

/-- The ASCII digit (lower-case) for a value below 16. -/
def digitChar (d : Nat) : UInt8 := if d < 10 then UInt8.ofNat (0x30 + d) else UInt8.ofNat (0x61 + (d - 10))

/-- `%d`, `strconv.Itoa`, `net.uitoa` of a non-negative number (Go std). -/
def decStr (n : Nat) : Str := (digits 10 n).map digitChar

/-- `net.appendHex` (Go std): hexadecimal without leading zeros. -/
def hexStr (n : Nat) : Str := (digits 16 n).map digitChar

/-- `net.hexString` (Go std): two digits per byte. -/
def hexBytes (b : Bytes) : Str := b.flatMap fun x => [digitChar (x.toNat / 16), digitChar (x.toNat % 16)]

/-- `net.big` (Go std). -/
def big : Nat := 0xFFFFFF

/-- Loop of `net.dtoi` (Go std): value, number of digits, rest; `none` when the number is too big. -/
def dtoiLoop : Str → Nat → Nat → Option (Nat × Nat × Str)
  | [], n, i => some (n, i, [])
  | c :: cs, n, i =>
    if 0x30 ≤ c ∧ c ≤ 0x39 then
      let n := n * 10 + (c.toNat - 0x30)
      if big ≤ n then none else dtoiLoop cs n (i + 1)
    else some (n, i, c :: cs)

/-- `net.dtoi` (Go std); `none` is `ok = false`. -/
def dtoi (s : Str) : Option (Nat × Nat × Str) :=
  match dtoiLoop s 0 0 with
  | some (n, i, rest) => if i = 0 then none else some (n, i, rest)
  | none => none

/-- Value of a hexadecimal digit. -/
def hexVal (c : UInt8) : Option Nat :=
  if 0x30 ≤ c ∧ c ≤ 0x39 then some (c.toNat - 0x30)
  else if 0x61 ≤ c ∧ c ≤ 0x66 then some (c.toNat - 0x61 + 10)
  else if 0x41 ≤ c ∧ c ≤ 0x46 then some (c.toNat - 0x41 + 10)
  else none

/-- Loop of `net.xtoi` (Go std). -/
def xtoiLoop : Str → Nat → Nat → Option (Nat × Nat × Str)
  | [], n, i => some (n, i, [])
  | c :: cs, n, i =>
    match hexVal c with
    | some d =>
      let n := n * 16 + d
      if big ≤ n then none else xtoiLoop cs n (i + 1)
    | none => some (n, i, c :: cs)

/-- `net.xtoi` (Go std). -/
def xtoi (s : Str) : Option (Nat × Nat × Str) :=
  match xtoiLoop s 0 0 with
  | some (n, i, rest) => if i = 0 then none else some (n, i, rest)
  | none => none

/-- Start of a number in `net.parseIPv4` (Go std): nothing before the first, a dot before the others. -/
def octetStart (first : Bool) (s : Str) : Option Str :=
  if first then (if s = [] then none else some s)
  else match s with
    | 0x2E :: t => some t
    | _ => none

/-- Loop of `net.parseIPv4` (Go std): `k` numbers still to read, `first` when none has been read. -/
def parseIPv4Loop : Nat → Bool → Str → Option (List UInt8 × Str)
  | 0, _, s => some ([], s)
  | k + 1, first, s =>
    match octetStart first s with
    | none => none
    | some s => match dtoi s with
      | none => none
      | some (n, c, rest) =>
        if 0xFF < n then none
        else if 1 < c ∧ s.head? = some 0x30 then none
        else match parseIPv4Loop k false rest with
          | none => none
          | some (ps, t) => some (UInt8.ofNat n :: ps, t)

/-- `net.parseIPv4` (Go std): the four bytes (the Go function returns the 16-byte form). -/
def parseIPv4 (s : Str) : Option (List UInt8) :=
  match parseIPv4Loop 4 true s with
  | some (ps, []) => some ps
  | _ => none

/-- Loop of `net.parseIPv6` (Go std) over the 16-bit groups: at most `fuel` more; `acc` are the groups read,
`ell` the position of the ellipsis.  `none` is a syntax error. -/
def parseIPv6Loop : Nat → List Nat → Option Nat → Str → Option (List Nat × Option Nat × Str)
  | 0, acc, ell, s => some (acc, ell, s)
  | f + 1, acc, ell, s =>
    match xtoi s with
    | none => none
    | some (n, _, rest) =>
      if 0xFFFF < n then none
      else if rest.head? = some 0x2E then
        if ell = none ∧ acc.length ≠ 6 then none
        else if 8 < acc.length + 2 then none
        else match parseIPv4 s with
          | some [a, b, c, d] => some (acc ++ [a.toNat * 256 + b.toNat, c.toNat * 256 + d.toNat], ell, [])
          | _ => none
      else
        let acc := acc ++ [n]
        match rest with
        | [] => some (acc, ell, [])
        | 0x3A :: t => match t with
          | [] => none
          | 0x3A :: t' =>
            if ell.isSome then none
            else if t' = [] then some (acc, some acc.length, [])
            else parseIPv6Loop f acc (some acc.length) t'
          | t => parseIPv6Loop f acc ell t
        | _ => none

/-- The bytes of 16-bit groups. -/
def wordsToBytes (ws : List Nat) : Bytes := ws.flatMap fun w => [UInt8.ofNat (w / 256), UInt8.ofNat w]

/-- Start of `net.parseIPv6` (Go std): a leading ellipsis. -/
def leadEllipsis : Str → Option Nat × Str
  | 0x3A :: 0x3A :: t => (some 0, t)
  | s => (none, s)

/-- `net.parseIPv6` (Go std), without zone. -/
def parseIPv6 (s : Str) : Option IP :=
  if (leadEllipsis s).1.isSome ∧ (leadEllipsis s).2 = [] then some (List.replicate 16 0)
  else match parseIPv6Loop 8 [] (leadEllipsis s).1 (leadEllipsis s).2 with
    | some (acc, ell, []) =>
      if acc.length < 8 then match ell with
        | none => none
        | some e => some (wordsToBytes (acc.take e ++ List.replicate (8 - acc.length) 0 ++ acc.drop e))
      else if ell.isSome then none
      else some (wordsToBytes acc)
    | _ => none

/-- `net.ParseIP` (Go std): decided by the first `.` or `:`. -/
def ParseIP (s : Str) : Option IP :=
  match s.find? (fun c => c = 0x2E ∨ c = 0x3A) with
  | some 0x2E => (parseIPv4 s).map (v4InV6Prefix ++ ·)
  | some _ => parseIPv6 s
  | none => none

/-- `net.ParseCIDR` (Go std): the network (second result). -/
def ParseCIDR (s : Str) : Option IPNet :=
  match s.idxOf? 0x2F with
  | none => none
  | some i =>
    let addr := s.take i
    let mask := s.drop (i + 1)
    let (iplen, ip) := match parseIPv4 addr with
      | some p => (4, some (v4InV6Prefix ++ p))
      | none => (16, parseIPv6 addr)
    match ip, dtoi mask with
    | some ip, some (n, _, []) =>
      if 8 * iplen < n then none
      else match CIDRMask n (8 * iplen) with
        | some m => (ipMask ip m).map fun x => ⟨x, m⟩
        | none => none
    | _, _ => none

/-- Dotted form of four bytes. -/
def dotted (p : List UInt8) : Str := joinByte 0x2E (p.map fun b => decStr b.toNat)

/-- The eight 16-bit groups of 16 bytes. -/
def bytesToWords : Bytes → List Nat
  | a :: b :: r => (a.toNat * 256 + b.toNat) :: bytesToWords r
  | _ => []

/-- First position at or after the start of `ws` (position `i`) that is not zero. -/
def zeroRunEnd : List Nat → Nat → Nat
  | 0 :: ws, i => zeroRunEnd ws (i + 1)
  | _, i => i

/-- Loop of `net.IP.String` (Go std) looking for the longest run of zeros: best run so far as start and length. -/
def longestZeros (ws : List Nat) : Nat → Nat → Nat × Nat → Nat × Nat
  | 0, _, best => best
  | f + 1, i, best =>
    if 8 ≤ i then best
    else
      let j := zeroRunEnd (ws.drop i) i
      if i < j ∧ best.2 < j - i then longestZeros ws f (j + 1) (i, j - i)
      else longestZeros ws f (i + 1) best

/-- Printing loop of `net.IP.String` (Go std); `e` is the run replaced by `::`. -/
def v6Print (ws : List Nat) (e : Option (Nat × Nat)) : Nat → Nat → Str
  | 0, _ => []
  | f + 1, i =>
    if 8 ≤ i then []
    else match e with
      | some (e0, e1) =>
        if i = e0 then 0x3A :: 0x3A :: (if 8 ≤ e1 then [] else hexStr (ws.getD e1 0) ++ v6Print ws (some (e0, e1)) f (e1 + 1))
        else (if 0 < i then [0x3A] else []) ++ hexStr (ws.getD i 0) ++ v6Print ws (some (e0, e1)) f (i + 1)
      | none => (if 0 < i then [0x3A] else []) ++ hexStr (ws.getD i 0) ++ v6Print ws none f (i + 1)

/-- `net.IP.String` (Go std). -/
def IPString (ip : IP) : Str :=
  if ip.length = 0 then gs "<nil>"
  else match To4 ip with
    | some p4 => dotted p4
    | none =>
      if ip.length ≠ 16 then gs "?" ++ hexBytes ip
      else
        let ws := bytesToWords ip
        let best := longestZeros ws 8 0 (0, 0)
        v6Print ws (if best.2 ≤ 1 then none else some (best.1, best.1 + best.2)) 8 0

/-- `net.networkNumberAndMask` (Go std). -/
def networkNumberAndMask (n : IPNet) : Option (IP × Bytes) :=
  match (match To4 n.ip with
    | some p => some p
    | none => if n.ip.length = 16 then some n.ip else none) with
  | none => none
  | some ip =>
    if n.mask.length = 4 then (if ip.length = 4 then some (ip, n.mask) else none)
    else if n.mask.length = 16 then some (ip, if ip.length = 4 then n.mask.drop 12 else n.mask)
    else none

/-- `net.IPNet.String` (Go std). -/
def IPNetString (n : IPNet) : Str :=
  match networkNumberAndMask n with
  | none => gs "<nil>"
  | some (ip, m) => match simpleMaskLength m with
    | none => IPString ip ++ 0x2F :: hexBytes m
    | some l => IPString ip ++ 0x2F :: decStr l

/-- Loop of `strconv.ParseUint(s, 10, 32)` (Go std). -/
def parseUintLoop : Str → Nat → Option Nat
  | [], n => some n
  | c :: cs, n =>
    if 0x30 ≤ c ∧ c ≤ 0x39 then
      let n := n * 10 + (c.toNat - 0x30)
      if 2 ^ 32 ≤ n then none else parseUintLoop cs n
    else none

/-- `strconv.ParseUint(s, 10, 32)` (Go std); `none` is an error. -/
def ParseUint32 (s : Str) : Option Nat := if s = [] then none else parseUintLoop s 0

end Uip
