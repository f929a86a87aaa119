import Verif.Model.GoNet
/-!
# Package `ipnet` (`/repo/ipnet/*.go`)
-/
namespace Uip

/-- `/repo/ipnet/ip.go:9-11` Uint32ToIPv4.  The argument is a `uint32`. -/
def Uint32ToIPv4 (uip : UInt32) : IP :=
  goIPv4 (uip >>> 24 &&& 0xFF).toUInt8 (uip >>> 16 &&& 0xFF).toUInt8 (uip >>> 8 &&& 0xFF).toUInt8
    (uip &&& 0xFF).toUInt8

/-- `/repo/ipnet/ip.go:14-17` IPv4ToUint32; indexing a nil `To4` result panics. -/
def IPv4ToUint32 (ip : IP) : Res UInt32 :=
  match To4 ip with
  | some [a, b, c, d] => .ok ((a.toUInt32 <<< 24) + (b.toUInt32 <<< 16) + (c.toUInt32 <<< 8) + d.toUInt32)
  | _ => .panic

/-- `/repo/ipnet/ip.go:28-34` Uint64ToIP. -/
def Uint64ToIP (uip : UInt64) : IP :=
  [(uip >>> 56 &&& 0xFF).toUInt8, (uip >>> 48 &&& 0xFF).toUInt8, (uip >>> 40 &&& 0xFF).toUInt8,
   (uip >>> 32 &&& 0xFF).toUInt8, (uip >>> 24 &&& 0xFF).toUInt8, (uip >>> 16 &&& 0xFF).toUInt8,
   (uip >>> 8 &&& 0xFF).toUInt8, (uip &&& 0xFF).toUInt8, 0, 0, 0, 0, 0, 0, 0, 0]

/-- `/repo/ipnet/ip.go:37-44` Uint64ToIP2. -/
def Uint64ToIP2 (high low : UInt64) : IP :=
  [(high >>> 56 &&& 0xFF).toUInt8, (high >>> 48 &&& 0xFF).toUInt8, (high >>> 40 &&& 0xFF).toUInt8,
   (high >>> 32 &&& 0xFF).toUInt8, (high >>> 24 &&& 0xFF).toUInt8, (high >>> 16 &&& 0xFF).toUInt8,
   (high >>> 8 &&& 0xFF).toUInt8, (high &&& 0xFF).toUInt8,
   (low >>> 56 &&& 0xFF).toUInt8, (low >>> 48 &&& 0xFF).toUInt8, (low >>> 40 &&& 0xFF).toUInt8,
   (low >>> 32 &&& 0xFF).toUInt8, (low >>> 24 &&& 0xFF).toUInt8, (low >>> 16 &&& 0xFF).toUInt8,
   (low >>> 8 &&& 0xFF).toUInt8, (low &&& 0xFF).toUInt8]

/-- `/repo/ipnet/ip.go:46-57` allFF / IsAllMask. -/
def IsAllMask : IP → Bool
  | [] => true
  | c :: cs => if c ≠ 0xff then false else IsAllMask cs

/-- Loop of `/repo/ipnet/ip.go:62-68`: the argument is `i+1`, `res` the partially built result
(`copy(res, ip[0:i])` overwrites the first `i` bytes). -/
def nextIPLoop (ip res : IP) : Nat → IP
  | 0 => res
  | i + 1 =>
    let r := ip.getD i 0 + 1
    let res := res.set i r
    if r ≠ 0 then ip.take i ++ res.drop i else nextIPLoop ip res i

/-- `/repo/ipnet/ip.go:60-70` NextIP. -/
def NextIP (ip : IP) : IP := nextIPLoop ip (List.replicate ip.length 0) ip.length

/-- `/repo/ipnet/ip.go:73-84` IPLess.  A nil `To16` result compares as the empty slice. -/
def IPLess (a b : IP) : Bool :=
  let left := if a.length ≠ b.length ∧ a.length < b.length then (To16 a).getD [] else a
  let right := if a.length ≠ b.length ∧ ¬ a.length < b.length then (To16 b).getD [] else b
  bytesLt left right

/-- `/repo/ipnet/ip.go:87-95` IsFirstIP. -/
def IsFirstIP (ip : IP) (ipv6 : Bool) : Bool :=
  if ipv6 then ipEqual ip IPv6zero
  else if ip.length = 16 then ip.drop 12 == [0, 0, 0, 0]
  else ipEqual ip IPv4zero

/-- `/repo/ipnet/ip.go:97-104` IpNet: nil mask / nil IP are the empty slice. -/
def IpNet (addr : IP) (mask : Int) : IPNet :=
  let ip := match To4 addr with
    | some ip => ip
    | none => (To16 addr).getD []
  let cidrMask := (CIDRMask mask (ip.length * 8)).getD []
  { ip := (ipMask addr cidrMask).getD [], mask := cidrMask }

/-- `/repo/ipnet/ipnet.go:25-33` LastIP; `mask[i]` out of range panics. -/
def LastIP (n : IPNet) : Res IP :=
  if n.mask.length < n.ip.length then .panic
  else .ok (List.zipWith (fun a m => a ||| ~~~ m) n.ip n.mask)

/-- `/repo/ipnet/ipnet.go:7-10` NextStart. -/
def NextStart (n : IPNet) : Res IP := do
  let ip ← LastIP n
  return NextIP ip

/-- `/repo/ipnet/ipnet.go:15-22` MaskLess. -/
def MaskLess (a b : IPNet) : Bool :=
  if a.ip.length ≠ b.ip.length then a.ip.length < b.ip.length
  else (maskSize a.mask).1 > (maskSize b.mask).1

/-- `/repo/ipnet/ipnet.go:36-38` Contains. -/
def Contains (start end_ ip : IP) : Bool :=
  !(IPLess ip start) && IPLess ip (NextIP end_)

/-- `/repo/ipnet/range.go:25-28` Range. -/
structure Range where
  start : IP
  end_ : IP
  deriving DecidableEq, Repr

/-- `/repo/ipnet/range.go:147-153` the `sort.Interface` methods of Ranges; `r[i]` out of range panics. -/
def Ranges.Len (r : List Range) : Nat := r.length

def Ranges.Swap (r : List Range) (i j : Nat) : Res (List Range) :=
  match r[i]?, r[j]? with
  | some a, some b => .ok ((r.set i b).set j a)
  | _, _ => .panic

def Ranges.Less (r : List Range) (i j : Nat) : Res Bool :=
  match r[i]?, r[j]? with
  | some a, some b => .ok (IPLess a.start b.start)
  | _, _ => .panic

/-- `/repo/ipnet/range.go:32-37` NewRange; a nil `To16` is the empty slice. -/
def NewRange (n : IPNet) : Res Range := do
  let last ← LastIP n
  return { start := (To16 n.ip).getD [], end_ := (To16 last).getD [] }

/-- `/repo/ipnet/range.go:40-50` Range.Join: returns the new range and the result. -/
def Range.Join (r r2 : Range) : Range × Bool :=
  if IPLess r2.start r.start || IPLess (NextIP r.end_) r2.start then (r, false)
  else if !(IPLess r2.end_ r.end_) then ({ r with end_ := r2.end_ }, true)
  else (r, true)

/-- `/repo/ipnet/range.go:53-70` Range.CommonRange. -/
def Range.CommonRange (r : Range) (ip : IP) (r2 : Range) : Range × Bool :=
  if IPLess r2.end_ r.start || IPLess (NextIP r.end_) r2.start then (r, false)
  else
    let start := if IPLess r.start r2.start then r2.start else r.start
    let end_ := if IPLess r2.end_ r.end_ then r2.end_ else r.end_
    if !(Uip.Contains start end_ ip) then (r, false)
    else ({ start := start, end_ := end_ }, true)

/-- `/repo/ipnet/range.go:73-75` Range.Contains. -/
def Range.Contains (r : Range) (ip : IP) : Bool := Uip.Contains r.start r.end_ ip

/-- `/repo/ipnet/range.go:78-88` Range.JoinIPNet. -/
def Range.JoinIPNet (r : Range) (n : IPNet) : Res (Range × Bool) :=
  let ip16 := (To16 n.ip).getD []
  if IPLess ip16 r.start || IPLess (NextIP r.end_) ip16 then .ok (r, false)
  else do
    let last ← LastIP n
    let last16 := (To16 last).getD []
    if !(IPLess last16 r.end_) then return ({ r with end_ := last16 }, true)
    else return (r, true)

/-- Loop of `/repo/ipnet/range.go:122-130`. -/
def prefixSameLoop : IP → IP → Nat
  | s :: ss, e :: es =>
    let x := e ^^^ s
    if x = 0 then 8 + prefixSameLoop ss es else leadingZeros8 x
  | _, _ => 0

/-- `/repo/ipnet/range.go:116-132` PrefixSameLength. -/
def PrefixSameLength (start end_ : IP) : Nat :=
  if start.length ≠ end_.length then 0 else prefixSameLoop start end_

/-- Loop of `/repo/ipnet/range.go:137-141` (argument `i+1`). -/
def suffixZeroLoop (ip : IP) : Nat → Nat
  | 0 => ip.length * 8
  | i + 1 => if ip.getD i 0 ≠ 0 then (ip.length - 1 - i) * 8 + trailingZeros (ip.getD i 0)
             else suffixZeroLoop ip i

/-- `/repo/ipnet/range.go:135-143` SuffixZeroLength. -/
def SuffixZeroLength (ip : IP) : Nat := suffixZeroLoop ip ip.length

/-- One iteration of the loop of `/repo/ipnet/range.go:96-105`: the block emitted at `start`. -/
def ipNetsBlock (start end_ : IP) : IPNet :=
  let bitLength := start.length * 8
  let cidr := bitLength - SuffixZeroLength start
  let p := PrefixSameLength start (NextIP end_) + 1
  let p := if p > bitLength then 0 else p
  let cidr := if cidr < p then p else cidr
  { ip := start, mask := (CIDRMask cidr bitLength).getD [] }

/-- Loop of `/repo/ipnet/range.go:95-112`.  The Go loop is unbounded; the first argument is fuel and
`none` means "still running after that many iterations". -/
def ipNetsLoop : Nat → IP → IP → Option (Res (List IPNet))
  | 0, _, _ => none
  | fuel + 1, start, end_ =>
    let ipNet := ipNetsBlock start end_
    match LastIP ipNet with
    | .ok last =>
      if !(IPLess last end_) then some (.ok [ipNet])
      else match ipNetsLoop fuel (NextIP last) end_ with
        | some (.ok rest) => some (.ok (ipNet :: rest))
        | other => other
    | .err e => some (.err e)
    | .panic => some .panic

/-- Iteration bound used for `IPNets`: every terminating run is shorter
(`C10` shows that proper ranges need at most 255 iterations). -/
def ipNetsFuel : Nat := 256

/-- `/repo/ipnet/range.go:91-113` Range.IPNets; `none` = does not return within the bound. -/
def Range.IPNets (r : Range) : Option (Res (List IPNet)) :=
  ipNetsLoop ipNetsFuel ((To16 r.start).getD []) ((To16 r.end_).getD [])

end Uip
