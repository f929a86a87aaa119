import Verif.Model.Ipdb.Fields
/-!
# `/repo/db/format/ipdb/{writer,packer}.go`
-/
namespace Uip.Ipdb
open Uip

/-- Bit `i` of an address as the code computes it,
`((0xFF & int(ip[i>>3])) >> uint(7-(i%8))) & 1` (`/repo/db/format/ipdb/writer.go:172`,
`reader.go:245`); out of range panics. -/
def ipBit (ip : Bytes) (i : Nat) : Res Nat :=
  match ip[i >>> 3]? with
  | some b => .ok ((b.toNat >>> (7 - i % 8)) &&& 1)
  | none => .panic

/-- `/repo/db/format/ipdb/writer.go:35-41` Writer.  `node` entries are Go `[2]int`, `dataHash` a map
(newest first). -/
structure Writer where
  md : MetaData
  node : List (Int × Int)
  dataHash : GoMap Nat
  dataChunk : Bytes
  continentOffset : Option Nat
  deriving DecidableEq, Repr

/-- `strings.ToLower(s)` as far as comparing with an ASCII word goes (Go std): ASCII letters, U+0130
and U+212A are the only characters whose lower case is ASCII. -/
def asciiLower : Str → Str
  | [] => []
  | 0xC4 :: 0xB0 :: r => 0x69 :: asciiLower r
  | 0xE2 :: 0x84 :: 0xAA :: r => 0x6B :: asciiLower r
  | b :: r => (if 0x41 ≤ b ∧ b ≤ 0x5A then b + 0x20 else b) :: asciiLower r

/-- Loop of `/repo/db/format/ipdb/writer.go:50-55`: the last field called "continent" wins. -/
def continentIdx : List Str → Nat → Option Nat → Option Nat
  | [], _, acc => acc
  | f :: fs, i, acc => continentIdx fs (i + 1) (if asciiLower f = fContinent then some i else acc)

/-- `/repo/db/format/ipdb/writer.go:44-64` NewWriter (languages nil, filled in by `buildMeta`). -/
def NewWriter (md : MetaData) : Writer :=
  { md := md, node := [(0, 0)], dataHash := [], dataChunk := [],
    continentOffset := continentIdx md.fields 0 none }

/-- Read `p.node[node][bit]`; out of range panics. -/
def Writer.get (w : Writer) (node bit : Nat) : Res Int :=
  match w.node[node]? with
  | some (l, r) => .ok (if bit = 0 then l else r)
  | none => .panic

/-- Write `p.node[node][bit] = v`; out of range panics. -/
def Writer.put (w : Writer) (node bit : Nat) (v : Int) : Res Writer :=
  match w.node[node]? with
  | some (l, r) => .ok { w with node := w.node.set node (if bit = 0 then (v, r) else (l, v)) }
  | none => .panic

/-- `/repo/db/format/ipdb/writer.go:171-181`, the loop of Nodes with `steps = maxMask - i`. -/
def Writer.nodesLoop (ip : Bytes) : Nat → Nat → Nat → Nat → Writer → Res (Writer × Nat × Nat × Bool)
  | 0, _, node, indexBit, w => .ok (w, node, indexBit, true)
  | steps + 1, i, node, _, w => do
    let indexBit ← ipBit ip i
    let e ← w.get node indexBit
    let w ← (if e = 0 then
        let w := { w with node := w.node ++ [(0, 0)] }
        w.put node indexBit (w.node.length - 1)
      else .ok w)
    let e ← w.get node indexBit
    if e < 0 then return (w, node, indexBit, false)
    else Writer.nodesLoop ip steps (i + 1) e.toNat indexBit w

/-- `/repo/db/format/ipdb/writer.go:159-183` Nodes. `mask - 1` may be -1 only for an IPv6 mask 0, then
`ip[maxMask>>3]` panics. -/
def Writer.Nodes (w : Writer) (ip : IP) (mask : Nat) : Res (Writer × Nat × Nat × Bool) :=
  let maxMask : Int := (mask : Int) - 1
  let (ip, maxMask) := if (To4 ip).isSome then
      ((if ip.length = 4 then (To16 ip).getD [] else ip), if maxMask < 32 then maxMask + 96 else maxMask)
    else (ip, maxMask)
  if maxMask < 0 then .panic
  else do
    let (w, node, bit, ok) ← w.nodesLoop ip maxMask.toNat 0 0 0
    if ok then
      let bit ← ipBit ip maxMask.toNat
      return (w, node, bit, true)
    else return (w, node, bit, false)

/-- `/repo/db/format/ipdb/writer.go:201-212` IntToBinaryBE with length 16. -/
def intToBE16 (num : Nat) : Bytes := [UInt8.ofNat (num / 256), UInt8.ofNat num]

/-- `/repo/db/format/ipdb/writer.go:201-212` IntToBinaryBE with length 32 (arguments are never negative). -/
def intToBE32 (num : Nat) : Bytes :=
  [UInt8.ofNat (num / 2 ^ 24), UInt8.ofNat (num / 2 ^ 16), UInt8.ofNat (num / 2 ^ 8), UInt8.ofNat num]

/-- `/repo/db/format/ipdb/writer.go:188-198` Fields: returns the offset. -/
def Writer.Fields (w : Writer) (fields : List Str) : Writer × Nat :=
  let data := joinByte 0x09 fields
  match mapGet w.dataHash data with
  | some off => (w, off)
  | none =>
    let off := w.dataChunk.length + 8
    ({ w with dataHash := mapSet w.dataHash data off,
              dataChunk := w.dataChunk ++ intToBE16 data.length ++ data }, off)

/-- `/repo/db/format/ipdb/writer.go:147-155` resolve, used in a log message only: what matters is whether
it panics. -/
def Writer.resolve (w : Writer) (offset : Int) : Res Str :=
  let offset := offset - 8
  if offset < 0 ∨ (w.dataChunk.length : Int) < offset + 2 then .panic
  else
    let o := offset.toNat
    let size := val ((w.dataChunk.drop o).take 2)
    if w.dataChunk.length < o + 2 + size then .ok []
    else .ok ((w.dataChunk.drop (o + 2)).take size)

/-- `/repo/db/format/ipdb/writer.go:124-139` the switch over continent names. -/
def continentCode (s : Str) : Str :=
  if s = gs "亚洲" then gs "AS"
  else if s = gs "欧洲" then gs "EU"
  else if s = gs "北美洲" then gs "NA"
  else if s = gs "南美洲" then gs "SA"
  else if s = gs "大洋洲" then gs "OC"
  else if s = gs "非洲" then gs "AF"
  else if s = gs "南极洲" then gs "AN"
  else s

/-- `/repo/db/format/ipdb/writer.go:123-140`: the values after the continent has been replaced in place;
an index out of range panics. -/
def Writer.convValues (w : Writer) (values : List Str) : Res (List Str) :=
  match w.continentOffset with
  | none => .ok values
  | some i => match values[i]? with
    | none => .panic
    | some v => .ok (values.set i (continentCode v))

/-- `/repo/db/format/ipdb/writer.go:112-144` insert: the writer afterwards and the error returned
(nodes may have been added even on the error path).  `values` is changed in place by the code; the
caller-visible part of that is modelled in `Model/Operate.lean`. -/
def Writer.insert (w : Writer) (ipNet : IPNet) (values : List Str) : Res (Writer × Option Err) := do
  let mask := (maskSize ipNet.mask).1
  let (w, node, index, ok) ← w.Nodes ipNet.ip mask
  let e ← w.get node index
  if !ok then
    let _ ← w.resolve (-e)
    return (w, some .invalidCIDR)
  else if e > 0 then return (w, some .cidrConflict)
  else
    let values ← w.convValues values
    let (w, offset) := w.Fields values
    let w ← w.put node index (-(offset : Int))
    return (w, none)

/-- Loop of `/repo/db/format/ipdb/packer.go:13-15`: errors of insert are ignored. -/
def Writer.insertAll (w : Writer) : List IpRaw → Res Writer
  | [] => .ok w
  | v :: vs => do
    let (w, _) ← w.insert v.cidr v.values
    Writer.insertAll w vs

/-- `/repo/db/format/ipdb/writer.go:77-80`: one entry of the node chunk. -/
def nodeWord (n : Nat) (e : Int) : Bytes := intToBE32 (if e ≤ 0 then (n : Int) - e else e).toNat

/-- `/repo/db/format/ipdb/writer.go:70-85`: node chunk with the loop-back node. -/
def Writer.nodeChunk (w : Writer) : Bytes :=
  w.node.flatMap (fun e => nodeWord w.node.length e.1 ++ nodeWord w.node.length e.2)
    ++ intToBE32 w.node.length ++ intToBE32 w.node.length

/-- `/repo/db/format/ipdb/writer.go:71,89`: the metadata actually written. -/
def Writer.savedMeta (w : Writer) : MetaData :=
  { w.md with nodeCount := w.node.length, totalSize := (w.nodeChunk.length + w.dataChunk.length : Nat) }

/-- `/repo/db/format/ipdb/writer.go:67-109` Save: the bytes written. `enc` is `json.Marshal` on MetaData
(it cannot fail on this type). -/
def Writer.Save (enc : MetaData → Bytes) (w : Writer) : Bytes :=
  intToBE32 (enc w.savedMeta).length ++ enc w.savedMeta ++ w.nodeChunk ++ w.dataChunk

/-- `/repo/db/format/ipdb/packer.go:8-17` pack. -/
def pack (enc : MetaData → Bytes) (now : Int) (ipd : IpData) : Res Bytes := do
  let w ← (NewWriter (buildMeta now ipd.version ipd.fields)).insertAll ipd.ips
  return w.Save enc

end Uip.Ipdb
