import Verif.Model.GoText
import Verif.Model.GoScan
import Verif.Model.Inf
/-!
# Package `db/format/memip` (`/repo/db/format/memip/*.go`): the `.memip` text

`build` and `day` stand for `tm.Unix()` and `tm.Format("20060102")` of the time of the dump.  `pack` is for a writer that does not fail;
`packCalls` gives the calls of the writer.
Data sets are values here: neither direction writes into a slice it was given.
-/
namespace Uip.Memip
open Uip

/-- `/repo/db/format/memip/init.go:8` fields. -/
def fields : List Str := [fCity, fProvince, fDistrict, fISP, fCountry, fContinent]

/-! ## packer.go -/

/-- Inner loop of `/repo/db/format/memip/packer.go:54-59` from index `j`; `none` is -1. -/
def findFrom (f : Str) : Nat → List Str → Option Nat
  | _, [] => none
  | j, ff :: fs => if f = ff then some j else findFrom f (j + 1) fs

/-- `/repo/db/format/memip/packer.go:50-62` fieldOffsets. -/
def fieldOffsets (fs : List Str) : List (Option Nat) := fields.map fun f => findFrom f 0 fs

/-- `/repo/db/format/memip/packer.go:75-92`: names of the continents. -/
def continentName (v : Str) : Str :=
  if v = gs "AS" then gs "亚洲"
  else if v = gs "EU" then gs "欧洲"
  else if v = gs "NA" then gs "北美洲"
  else if v = gs "SA" then gs "南美洲"
  else if v = gs "AF" then gs "非洲"
  else if v = gs "OC" then gs "大洋洲"
  else if v = gs "AN" then gs "南极洲"
  else v

/-- `/repo/db/format/memip/packer.go:67-99`: the new value at position `i`; `values[v]` out of range panics. -/
def newValue (values : List Str) (i : Nat) : Option Nat → Res Str
  | none => .ok (gs "默认")
  | some v => match values[v]? with
    | none => .panic
    | some nv =>
      let nv := if nv = [] ∨ (gs "保留").isPrefixOf nv then gs "默认" else nv
      let nv := if i = 5 then continentName nv else nv
      let nv := if i = 3 then
          (if nv ≠ gs "电信" ∧ nv ≠ gs "联通" ∧ nv ≠ gs "移动" ∧ nv ≠ gs "默认" then gs "其他" else nv)
        else nv
      .ok nv

/-- `/repo/db/format/memip/packer.go:101-104`: no district for the three provinces. -/
def dropDistrict (nvs : List Str) : List Str :=
  let pv := nvs.getD 1 []
  if pv = gs "香港" ∨ pv = gs "澳门" ∨ pv = gs "台湾" then nvs.set 2 (gs "默认") else nvs

/-- Loop of `/repo/db/format/memip/packer.go:66-106` from index `i`. -/
def covertLoop (values : List Str) : Nat → List (Option Nat) → List Str → Res (List Str)
  | _, [], nvs => .ok nvs
  | i, v :: vs, nvs => do
    let nv ← newValue values i v
    covertLoop values (i + 1) vs (dropDistrict (nvs.set i nv))

/-- `/repo/db/format/memip/packer.go:64-108` covertValues. -/
def covertValues (offsets : List (Option Nat)) (values : List Str) : Res (List Str) :=
  covertLoop values 0 offsets (List.replicate 6 [])

/-- Loop of `/repo/db/format/memip/packer.go:17-36` after the first row, with the append of line 37. -/
def packLoop (offsets : List (Option Nat)) : Range × List Str → List IpRaw → Res (List (Range × List Str))
  | prev, [] => .ok [prev]
  | prev, ip :: ips => do
    let values ← covertValues offsets ip.values
    if prev.2.drop 1 = values.drop 1 then do
      let (r, joined) ← prev.1.JoinIPNet ip.cidr
      if joined then packLoop offsets (r, prev.2) ips
      else do
        let nr ← NewRange ip.cidr
        let rest ← packLoop offsets (nr, values) ips
        return prev :: rest
    else do
      let nr ← NewRange ip.cidr
      let rest ← packLoop offsets (nr, values) ips
      return prev :: rest

/-- `/repo/db/format/memip/packer.go:39-44`: the line of a range. -/
def rangeLine (v4 : Bool) (rf : Range × List Str) : Res Str :=
  if v4 then do
    let s ← IPv4ToUint32 rf.1.start
    let e ← IPv4ToUint32 rf.1.end_
    return decStr s.toNat ++ 0x20 :: (decStr e.toNat ++ 0x20 :: joinByte 0x2D rf.2) ++ [0x0A]
  else .ok (IPString rf.1.start ++ 0x20 :: (IPString rf.1.end_ ++ 0x20 :: joinByte 0x2D rf.2) ++ [0x0A])

/-- Loop of `/repo/db/format/memip/packer.go:38-45`. -/
def rangeLines (v4 : Bool) : List (Range × List Str) → Res Str
  | [] => .ok []
  | rf :: rfs => do
    let l ← rangeLine v4 rf
    let t ← rangeLines v4 rfs
    return l ++ t

/-- `/repo/db/format/memip/packer.go:14-37` the ranges of pack; with no rows the nil range is dereferenced in line 41. -/
def packRanges (d : IpData) : Res (List (Range × List Str)) :=
  match d.ips with
  | [] => .panic
  | ip :: ips => do
    let offsets := fieldOffsets d.fields
    let values ← covertValues offsets ip.values
    let nr ← NewRange ip.cidr
    packLoop offsets (nr, values) ips

/-- `/repo/db/format/memip/packer.go:13-48` pack. -/
def pack (d : IpData) : Res Str := do
  let ranges ← packRanges d
  rangeLines d.version.IsIpV4 ranges

/-- Loop of `/repo/db/format/memip/packer.go:38-45` as the `Write` calls it makes, one for each `Fprintf`, up to its end or the
first address that is not IPv4 in a table marked IPv4-only (where `IPv4ToUint32` panics). -/
def lineCalls (v4 : Bool) : List (Range × List Str) → List Str
  | [] => []
  | rf :: rfs => match rangeLine v4 rf with
    | .ok l => l :: lineCalls v4 rfs
    | _ => []

/-- `/repo/db/format/memip/packer.go:13-48` pack as the `Write` calls it makes before it returns or panics. -/
def packCalls (d : IpData) : List Str :=
  match packRanges d with
  | .ok ranges => lineCalls d.version.IsIpV4 ranges
  | _ => []

/-! ## dumper.go -/

/-- `/repo/db/format/memip/dumper.go:62-72` parseV6Range; `none` is nil. -/
def parseV6Range (a b : Str) : Option Range :=
  match ParseIP a with
  | none => none
  | some start => match ParseIP b with
    | none => none
    | some end_ => some ⟨start, end_⟩

/-- `/repo/db/format/memip/dumper.go:74-84` parseV4Range. -/
def parseV4Range (a b : Str) : Option Range :=
  match ParseUint32 a with
  | none => none
  | some start => match ParseUint32 b with
    | none => none
    | some end_ => some ⟨Uint32ToIPv4 (UInt32.ofNat start), Uint32ToIPv4 (UInt32.ofNat end_)⟩

/-- `/repo/db/format/memip/dumper.go:86-100` parseLine: a nil range is no error. -/
def parseLine (line : Str) : Res (Option Range × List Str) :=
  match splitByte 0x20 line with
  | [a, b, view] =>
    .ok (if a.contains 0x3A then parseV6Range a b else parseV4Range a b, splitByte 0x2D view)
  | _ => .err (.other "bad format")

/-- Loop of `/repo/db/format/memip/dumper.go:118-132`; `cidr.End` of a nil range panics. -/
def readRows : List Str → Res (List (Range × List Str))
  | [] => .ok []
  | line :: ls => do
    let (rg, values) ← parseLine line
    match rg with
    | none => .panic
    | some rg =>
      if IsAllMask rg.end_ then .ok [(rg, values)]
      else do
        let rows ← readRows ls
        return (rg, values) :: rows

/-- Loop of `/repo/db/format/memip/dumper.go:137-145`; an `IPNets` call that does not return within its bound is
given as a panic (proper ranges always return, `C10`). -/
def splitRows : List (Range × List Str) → Res (List IpRaw)
  | [] => .ok []
  | p :: ps => match p.1.IPNets with
    | some (.ok subs) => do
      let rest ← splitRows ps
      return subs.map (fun sub => ⟨sub, p.2⟩) ++ rest
    | some (.err e) => .err e
    | some .panic => .panic
    | none => .panic

/-- `/repo/db/format/memip/dumper.go:107-112` ipVer; `lines[0]` of no lines panics. -/
def ipVer : List Str → Res Int
  | [] => .panic
  | l :: _ => .ok (if l.contains 0x3A then IpV6 else IpV4)

/-- `/repo/db/format/memip/dumper.go:17-28,36-56,114-149` dump, newDumper and Dump; the rule is ignored and
`scanner.Err()` is not consulted. -/
def dump (build : Int) (day : Str) (data : Str) : Res IpData := do
  let lines := (scanLines data).1
  let rows ← readRows lines
  let ips ← splitRows rows
  let t ← ipVer lines
  return ⟨fields, ⟨t, UInt32.ofNat ips.length, build, day, [], []⟩, ips⟩

end Uip.Memip
