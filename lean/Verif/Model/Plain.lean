import Verif.Model.GoText
import Verif.Model.GoScan
import Verif.Model.Heap
import Verif.Model.Export
/-!
# Package `db/format/plain` (`/repo/db/format/plain/*.go`): the `.scan` text

`json.Marshal`/`json.Unmarshal` of `*inf.VersionInfo` are parameters: `enc v` is the text, `dec s` is `none`
for a JSON error, `some none` for `null` (the pointer stays nil).  `now` is the text of `time.Now()`.  The
writer does not fail.
-/
namespace Uip.Plain
open Uip Uip.Export

/-- Loop of `/repo/db/format/plain/packer.go:32-34` from index `i`, `n` elements left: each value is read and
written back in place. -/
def replaceLoop (s : Slice) : Nat → Nat → Heap → Res Heap
  | 0, _, h => .ok h
  | n + 1, i, h => do
    let v ← h.get s i
    let h ← h.put s i (replaceByte 0x2C 0x5F v)
    replaceLoop s n (i + 1) h

/-- `/repo/db/format/plain/packer.go:31-35` replaceComma. -/
def replaceComma (h : Heap) (s : Slice) : Res Heap := replaceLoop s s.len 0 h

/-- Loop of `/repo/db/format/plain/packer.go:21-27`: text of the rows and the heap left behind. -/
def packRows : List HRow → Heap → Res (Str × Heap)
  | [], h => .ok ([], h)
  | r :: rs, h => do
    let h ← replaceComma h r.vals
    let line := IPNetString r.cidr ++ 0x09 :: joinByte 0x2C (h.read r.vals) ++ [0x0A]
    let (t, h) ← packRows rs h
    return (line ++ t, h)

/-- `/repo/db/format/plain/packer.go:18-20`: the three header lines. -/
def header (verStr now : Str) (fields : List Str) : Str :=
  gs "#### scan dump " ++ now ++ gs " ####" ++ 0x0A :: (gs "#### " ++ verStr ++ 0x0A :: (gs "#### " ++ joinByte 0x2C fields ++ [0x0A]))

/-- `/repo/db/format/plain/packer.go:13-29` pack: the text written and the data set left behind (the values
are rewritten in place). -/
def pack (enc : VersionInfo → Str) (now : Str) (d : HData) : Res (Str × HData) := do
  let (t, h) ← packRows d.rows d.heap
  return (header (enc d.version) now d.fields ++ t, { d with heap := h })

/-- `/repo/db/format/plain/dumper.go:31-35` traversal; `version = none` is the nil pointer. -/
structure Traversal where
  lines : List Str
  fields : List Str
  version : Option VersionInfo
  deriving DecidableEq, Repr

/-- `b[5:]`; panics when shorter (Go spec). -/
def skip5 (s : Str) : Res Str := if s.length < 5 then .panic else .ok (s.drop 5)

/-- The loop of `/repo/db/format/plain/dumper.go:42-60` over the scanned lines. -/
def readHeader (dec : Str → Option (Option VersionInfo)) : List Str → Res Traversal
  | [] => .ok ⟨[], [], none⟩
  | [_] => .ok ⟨[], [], none⟩
  | _ :: l1 :: rest => do
    let b ← skip5 l1
    match dec b with
    | none => .err (.other "json")
    | some v => match rest with
      | [] => .ok ⟨[], [], v⟩
      | l2 :: lines => do
        let b ← skip5 l2
        match v with
        | none => .panic
        | some v => .ok ⟨lines, splitByte 0x2C b, some v⟩

/-- `/repo/db/format/plain/dumper.go:37-62` newDumper.  `scanner.Err()` is not consulted. -/
def newDumper (dec : Str → Option (Option VersionInfo)) (data : Str) : Res Traversal :=
  readHeader dec (scanLines data).1

/-- `/repo/db/format/plain/dumper.go:72-79` fieldToMap. -/
def fieldToMap (fields : List Str) : GoMap Str := fields.foldl (fun m f => mapSet m f f) []

/-- `/repo/db/format/plain/dumper.go:81-100` parseLine. -/
def parseLine (t : Traversal) (line : Str) : Res (IPNet × GoMap Str) :=
  match splitByte 0x09 line with
  | [a, b] => match ParseCIDR a with
    | none => .err (.other "cidr")
    | some cidr =>
      if (splitByte 0x2C b).length ≠ t.fields.length then .err (.other "invalid line")
      else .ok (cidr, (t.fields.zip (splitByte 0x2C b)).foldl (fun m p => mapSet m p.1 p.2) [])
  | _ => .err (.other "invalid line")

/-- `/repo/db/format/plain/dumper.go:119-123`: the values of a row; without an exporter the slice stays nil. -/
def rowValues (exporter : Option Exporter) (fieldsMap : List (Str × Str)) (info : GoMap Str) : Res (List Str) :=
  match exporter with
  | none => .ok []
  | some e => e.Export fieldsMap info

/-- Loop of `/repo/db/format/plain/dumper.go:113-135`.  Reusing the previous slice (lines 125-127) is
`allocRows`. -/
def dumpLoop (t : Traversal) (exporter : Option Exporter) (fieldsMap : List (Str × Str)) : List Str → Res (List IpRaw)
  | [] => .ok []
  | line :: ls => do
    let (cidr, info) ← parseLine t line
    let values ← rowValues exporter fieldsMap info
    let last ← LastIP cidr
    if IsAllMask last then .ok [⟨cidr, values⟩]
    else do
      let rs ← dumpLoop t exporter fieldsMap ls
      return ⟨cidr, values⟩ :: rs

/-- `/repo/db/format/plain/dumper.go:102-137` Dump; `t.Version.Count` panics when the version is missing
(the size of the allocation it asks for is not modelled).
The version is set by the caller (`dump`). -/
def Traversal.Dump (t : Traversal) (exporter : Option Exporter) : Res IpData :=
  let fields := match exporter with
    | none => t.fields
    | some e => e.fields
  match t.version with
  | none => .panic
  | some v => do
    let ips ← dumpLoop t exporter (Select (fieldToMap t.fields) fields) t.lines
    return ⟨fields, v, ips⟩

/-- `/repo/db/format/plain/dumper.go:18-29` dump. -/
def dump (dec : Str → Option (Option VersionInfo)) (data : Str) (exporter : Option Exporter) : Res IpData := do
  let t ← newDumper dec data
  t.Dump exporter

end Uip.Plain
