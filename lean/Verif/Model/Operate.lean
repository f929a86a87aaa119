import Verif.Model.Heap
import Verif.Model.Names
import Verif.Model.Export
/-!
# Package `db/field/operate` (`/repo/db/field/operate/*.go`)

All operations work on rows whose value slices may be shared (`Model/Heap.lean`).  `grow` is the capacity
growth of the Go runtime's `append`.
-/
namespace Uip.Operate
open Uip

/-! ## replace.go -/

/-- Loop of `/repo/db/field/operate/replace.go:83-89` over the positions `i, i+1, ...` (`n` of them);
`tbl i` is `offsets[i]`. -/
def replaceLoop (tbl : Nat → Option (GoMap Str)) (s : Slice) : Nat → Nat → Heap → Res Heap
  | 0, _, h => .ok h
  | n + 1, i, h => do
    let v ← h.get s i
    let h ← (match tbl i with
      | none => .ok h
      | some m => match mapGet m v with
        | none => .ok h
        | some v' => h.put s i v')
    replaceLoop tbl s n (i + 1) h

/-- `/repo/db/field/operate/replace.go:76-81`: the table for each position. -/
def shortageTable (nm : GoMap (GoMap Str)) (fields : List Str) (i : Nat) : Option (GoMap Str) :=
  fields[i]?.bind (mapGet nm)

/-- `/repo/db/field/operate/replace.go:75-91` ReplaceShortage; `nm` is the global `data.NormalizedMap`. -/
def ReplaceShortage (nm : GoMap (GoMap Str)) (d : HData) : Res HData := do
  let (h, rows) ← forRows (fun h r => do
    let h ← replaceLoop (shortageTable nm d.fields) r.vals r.vals.len 0 h
    return (h, r)) d.heap d.rows
  return { d with rows := rows, heap := h }

/-- `/repo/db/field/operate/replace.go:13` mainIsp. -/
def mainIsp : List Str := [gs "电信", gs "联通", gs "移动", gs "铁通"]

/-- Loop of `/repo/db/field/operate/replace.go:28-34`: the last position of each field, 0 when absent. -/
def ispAsnOffsets : List Str → Nat → Nat × Nat → Nat × Nat
  | [], _, acc => acc
  | f :: fs, i, (isp, asn) =>
    ispAsnOffsets fs (i + 1) (if f = fISP then (i, asn) else if f = fAsn then (isp, i) else (isp, asn))

/-- Loop of `/repo/db/field/operate/replace.go:38-54`: the pairs (main ISP, ASN) seen; the Go code keeps them
as a map from ISP to a set of ASNs. -/
def collectMain (ispOffset asnOffset : Nat) (h : Heap) : List HRow → Res (List (Str × Str))
  | [] => .ok []
  | r :: rs => do
    let isp ← h.get r.vals ispOffset
    let rest ← (if asnOffset = 0 then collectMain ispOffset asnOffset h rs
      else do
        let asn ← h.get r.vals asnOffset
        let rest ← collectMain ispOffset asnOffset h rs
        return if InArray isp mainIsp then (isp, asn) :: rest else rest)
    return rest

/-- `/repo/db/field/operate/replace.go:15-22` asnMatchIsp: Go iterates a map in an unspecified order;
`order` is the order of the keys in this call. -/
def asnMatchIsp (order : List Str) (s : Str) (set : List (Str × Str)) : Str :=
  (order.find? fun k => set.any fun p => p.1 == k && p.2 == s).getD []

/-- Body of the loop of `/repo/db/field/operate/replace.go:61-71`. -/
def trimRow (ispOffset asnOffset : Nat) (set : List (Str × Str)) (order : List Str) (h : Heap) (r : HRow) : Res Heap := do
  let isp ← h.get r.vals ispOffset
  let asn ← h.get r.vals asnOffset
  if InArray isp mainIsp then return h
  else if asnMatchIsp order asn set ≠ [] then h.put r.vals ispOffset (asnMatchIsp order asn set)
  else return h

/-- Loop of `/repo/db/field/operate/replace.go:61-71`; `orders k` is the map iteration order used for row `k`. -/
def trimLoop (ispOffset asnOffset : Nat) (set : List (Str × Str)) (orders : Nat → List Str) : Nat → Heap → List HRow → Res Heap
  | _, h, [] => .ok h
  | k, h, r :: rs => do
    let h ← trimRow ispOffset asnOffset set (orders k) h r
    trimLoop ispOffset asnOffset set orders (k + 1) h rs

/-- `/repo/db/field/operate/replace.go:25-72` TrimAsnIspDup; a missing field and a field in the first column
are both taken as missing by the code. -/
def TrimAsnIspDup (orders : Nat → List Str) (d : HData) : Res HData := do
  let (ispOffset, asnOffset) := ispAsnOffsets d.fields 0 (0, 0)
  if ispOffset = 0 then return d
  else
    let set ← collectMain ispOffset asnOffset d.heap d.rows
    if asnOffset = 0 then return d
    else
      let h ← trimLoop ispOffset asnOffset set orders 0 d.heap d.rows
      return { d with heap := h }

/-- The iteration orders Go may use on the map built by `collectMain`: its keys, each once. -/
def IsOrder (set : List (Str × Str)) (order : List Str) : Prop := order.Nodup ∧ ∀ k, k ∈ order ↔ ∃ s, (k, s) ∈ set

/-- A possible outcome of TrimAsnIspDup: the result under some choice of map iteration orders. -/
def TrimRuns (d d' : HData) : Prop :=
  ∃ orders, (∀ set, collectMain (ispAsnOffsets d.fields 0 (0, 0)).1 (ispAsnOffsets d.fields 0 (0, 0)).2 d.heap d.rows = .ok set →
    ∀ k, IsOrder set (orders k)) ∧ TrimAsnIspDup orders d = .ok d'

/-- Loop of `/repo/db/field/operate/replace.go:101-120` with `prev` set: the ranges closed so far come first.
`reflect.DeepEqual` compares the values the slices denote. -/
def mergeLoop (h : Heap) : Range × Slice → List HRow → Res (List (Range × Slice))
  | prev, [] => .ok [prev]
  | prev, ip :: ips =>
    if h.read prev.2 = h.read ip.vals then do
      let (r, joined) ← prev.1.JoinIPNet ip.cidr
      if joined then mergeLoop h (r, prev.2) ips
      else do
        let nr ← NewRange ip.cidr
        let rest ← mergeLoop h (nr, ip.vals) ips
        return prev :: rest
    else do
      let nr ← NewRange ip.cidr
      let rest ← mergeLoop h (nr, ip.vals) ips
      return prev :: rest

/-- Loop of `/repo/db/field/operate/replace.go:123-131`; an `IPNets` call that does not return within its
bound is given as a panic (proper ranges always return, `C10`). -/
def splitRanges : List (Range × Slice) → Res (List HRow)
  | [] => .ok []
  | p :: ps => match p.1.IPNets with
    | some (.ok subs) => do
      let rest ← splitRanges ps
      return subs.map (fun sub => ⟨sub, p.2⟩) ++ rest
    | some (.err e) => .err e
    | some .panic => .panic
    | none => .panic

/-- `/repo/db/field/operate/replace.go:98-134` MergeNearNetwork; with no rows the nil range is used. -/
def MergeNearNetwork (d : HData) : Res HData :=
  match d.rows with
  | [] => .panic
  | r :: rs => do
    let nr ← NewRange r.cidr
    let ranges ← mergeLoop d.heap (nr, r.vals) rs
    let rows ← splitRanges ranges
    return { d with rows := rows, version := { d.version with count := UInt32.ofNat rows.length } }

/-! ## district.go -/

/-- `/repo/db/field/operate/district.go:9-52` provinceDistrict. -/
def provinceDistrict : GoMap Str := [
  (gs "黑龙江", gs "东北"), (gs "辽宁", gs "东北"), (gs "吉林", gs "东北"),
  (gs "新疆", gs "西北"), (gs "青海", gs "西北"), (gs "宁夏", gs "西北"), (gs "甘肃", gs "西北"), (gs "陕西", gs "西北"),
  (gs "内蒙古", gs "华北"), (gs "河北", gs "华北"), (gs "山西", gs "华北"), (gs "天津", gs "华北"), (gs "北京", gs "华北"),
  (gs "西藏", gs "西南"), (gs "四川", gs "西南"), (gs "重庆", gs "西南"), (gs "贵州", gs "西南"), (gs "云南", gs "西南"),
  (gs "湖南", gs "华中"), (gs "湖北", gs "华中"), (gs "河南", gs "华中"),
  (gs "山东", gs "华东"), (gs "江苏", gs "华东"), (gs "安徽", gs "华东"), (gs "浙江", gs "华东"), (gs "江西", gs "华东"),
  (gs "福建", gs "华东"), (gs "上海", gs "华东"),
  (gs "台湾", gs "华东"),
  (gs "广东", gs "华南"), (gs "广西", gs "华南"), (gs "海南", gs "华南"),
  (gs "香港", gs "华南"), (gs "澳门", gs "华南")]

/-- `row.FieldValues = append(row.FieldValues, v)` or `row.FieldValues[off] = v`, as AttachDistrict and
AttachLineByCidr do (`/repo/db/field/operate/district.go:70-75`, `line.go:30-35`). -/
def setOrAppend (grow : Nat → Nat) (off : Option Nat) (h : Heap) (r : HRow) (v : Str) : Res (Heap × HRow) :=
  match off with
  | none => let (h, s) := h.append grow r.vals v
            .ok (h, { r with vals := s })
  | some o => do
    let h ← h.put r.vals o v
    return (h, r)

/-- `/repo/db/field/operate/district.go:54-77` AttachDistrict. -/
def AttachDistrict (grow : Nat → Nat) (d : HData) : Res HData :=
  let districtOffset := Offset fDistrict d.fields
  let fields := if districtOffset.isNone then d.fields ++ [fDistrict] else d.fields
  match Offset fProvince fields with
  | none => .ok { d with fields := fields }
  | some provinceOffset => do
    let (h, rows) ← forRows (fun h r => do
      let p ← h.get r.vals provinceOffset
      let district := if p ≠ [] then (mapGet provinceDistrict p).getD [] else []
      setOrAppend grow districtOffset h r district) d.heap d.rows
    return { d with fields := fields, rows := rows, heap := h }

/-! ## line.go -/

/-- `/repo/db/inf/db_inf.go:22-28` Query, as far as the line operations use it. -/
structure LineDb where
  version : Str
  build : Int
  query : IP → Res (IpInfo × Nat)

/-- `/repo/db/field/operate/line.go:74-93` queryLine; an error gives the empty line. -/
def queryLine (cidr : IPNet) (line : LineDb) : Res Str :=
  match line.query cidr.ip with
  | .panic => .panic
  | .err _ => .ok []
  | .ok (l, _) =>
    let ispline := (splitByte 0x2F l.line).headD []
    .ok (if ispline ≠ [] ∧ ispline ≠ gs "电信" ∧ ispline ≠ gs "联通" ∧ ispline ≠ gs "移动" then
        (if ispline = gs "铁通" then gs "移动" else gs "电信")
      else ispline)

/-- The literal of `/repo/db/field/operate/line.go:27,109`. -/
def china : Str := gs "中国"

/-- `fmt.Sprintf("%s-%d", version, build)` (`/repo/db/field/operate/line.go:14,96`); the decimal rendering is a
parameter. -/
def lineVer (dec : Int → Str) (line : LineDb) : Str := line.version ++ 0x2D :: dec line.build

/-- `/repo/db/field/operate/line.go:13-37` AttachLineByCidr. -/
def AttachLineByCidr (grow : Nat → Nat) (dec : Int → Str) (line : LineDb) (d : HData) : Res HData :=
  let version := { d.version with extraInfo := d.version.extraInfo ++ [lineVer dec line] }
  let lineOffset := Offset fLine d.fields
  let fields := if lineOffset.isNone then d.fields ++ [fLine] else d.fields
  match Offset fCountry fields with
  | none => .ok { d with fields := fields, version := version }
  | some countryOffset => do
    let (h, rows) ← forRows (fun h r => do
      let c ← h.get r.vals countryOffset
      let ispline ← (if c = china then queryLine r.cidr line else .ok [])
      setOrAppend grow lineOffset h r ispline) d.heap d.rows
    return { d with fields := fields, version := version, rows := rows, heap := h }

/-- Loop of `/repo/db/field/operate/line.go:53-59`: (lineOffset, asnOffset), last position of each, 0 when absent. -/
def lineAsnOffsets : List Str → Nat → Nat × Nat → Nat × Nat
  | [], _, acc => acc
  | f :: fs, i, (line, asn) =>
    lineAsnOffsets fs (i + 1) (if f = fLine then (i, asn) else if f = fAsn then (line, i) else (line, asn))

/-- `/repo/db/field/operate/line.go:39-72` AttachLineByAsn.  `asnOffset` is only computed when the line field
is already there, and an existing line is only ever overwritten by an empty one: this is what the code does. -/
def AttachLineByAsn (grow : Nat → Nat) (asnLine : GoMap Str) (asnLineVer : Str) (d : HData) : Res HData :=
  let version := { d.version with extraInfo := d.version.extraInfo ++ [asnLineVer] }
  if InArray fAsn d.fields = false then .ok { d with version := version }
  else
    let hasLine := InArray fLine d.fields = false
    let fields := if hasLine then d.fields ++ [fLine] else d.fields
    let offs := if hasLine then (fields.length - 1, 0) else lineAsnOffsets fields 0 (0, 0)
    do
      let (h, rows) ← forRows (fun h r => do
        let asn ← h.get r.vals offs.2
        match mapGet asnLine asn with
        | none => return (h, r)
        | some line =>
          if hasLine then
            let (h, s) := h.append grow r.vals line
            return (h, { r with vals := s })
          else if line = [] then do
            let h ← h.put r.vals offs.1 line
            return (h, r)
          else return (h, r)) d.heap d.rows
      return { d with fields := fields, version := version, rows := rows, heap := h }

/-- `/repo/db/field/operate/line.go:95-117` ReplaceLineByCidr. -/
def ReplaceLineByCidr (dec : Int → Str) (line : LineDb) (d : HData) : Res HData :=
  let version := { d.version with extraInfo := d.version.extraInfo ++ [lineVer dec line] }
  match Offset fISP d.fields with
  | none => .ok { d with version := version }
  | some ispOffset => match Offset fCountry d.fields with
    | none => .ok { d with version := version }
    | some countryOffset => do
      let (h, rows) ← forRows (fun h r => do
        let c ← h.get r.vals countryOffset
        let ispline ← (if c = china then queryLine r.cidr line else .ok [])
        if ispline ≠ [] then do
          let h ← h.put r.vals ispOffset ispline
          return (h, r)
        else return (h, r)) d.heap d.rows
      return { d with version := version, rows := rows, heap := h }

/-- `/repo/db/field/operate/operate.go:7-11` DefaultOperates, applied in order as
`/repo/db/convert/dumper.go:34-36` does. -/
def DefaultOperates (nm : GoMap (GoMap Str)) (orders : Nat → List Str) (d : HData) : Res HData := do
  let d ← ReplaceShortage nm d
  let d ← TrimAsnIspDup orders d
  MergeNearNetwork d

end Uip.Operate
