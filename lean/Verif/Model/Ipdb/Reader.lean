import Verif.Model.Ipdb.Writer
/-!
# `/repo/db/format/ipdb/{reader,querier}.go`

Slices are assumed to have capacity = length (slicing past the length panics).
-/
namespace Uip.Ipdb
open Uip

/-- `/repo/db/format/ipdb/reader.go:34-43` reader. `cache` is `ipV4BitsCache` (nil when absent). -/
structure Reader where
  fileSize : Nat
  nodeCount : Int
  v4offset : Nat
  md : MetaData
  data : Bytes
  continentOffset : Option Nat
  cache : Option (List UInt64)
  deriving DecidableEq, Repr

/-- `/repo/db/format/ipdb/reader.go:250-253` readNode; out of range panics. -/
def readNode (data : Bytes) (node indexBit : Nat) : Res Nat :=
  let off := node * 8 + indexBit * 4
  if data.length < off + 4 then .panic else .ok (val ((data.drop off).take 4))

/-- `/repo/db/format/ipdb/reader.go:240-248` readDepth with `steps = depth - i`. -/
def readDepth (data : Bytes) (nodeCount : Int) (ip : Bytes) : Nat → Nat → Nat → Res (Nat × Nat)
  | 0, node, i => .ok (node, i)
  | steps + 1, node, i =>
    if (node : Int) ≥ nodeCount then .ok (node, i)
    else do
      let bit ← ipBit ip i
      let node ← readNode data node bit
      readDepth data nodeCount ip steps node (i + 1)

/-- `/repo/db/format/ipdb/reader.go:94-96` indexToBytes (cacheDepth = 14). -/
def indexToBytes (i : Nat) : Bytes := [UInt8.ofNat ((i <<< 2) >>> 8), UInt8.ofNat (0xFF &&& (i <<< 2))]

/-- `/repo/db/format/ipdb/reader.go:98-100` bytesToIndex; short slices panic. -/
def bytesToIndex : Bytes → Res Nat
  | b0 :: b1 :: _ => .ok (((0xFF &&& b0.toNat) <<< 8 >>> 2) ||| ((0xFF &&& b1.toNat) >>> 2))
  | _ => .panic

/-- `/repo/db/format/ipdb/reader.go:102-106` setCache: the entry stored at index `i` (`uint` is 64 bits). -/
def cacheEntry (data : Bytes) (nodeCount : Int) (v4offset : Nat) (i : Nat) : Res UInt64 := do
  let (node, off) ← readDepth data nodeCount (indexToBytes i) 14 v4offset 0
  return (UInt64.ofNat node <<< 5) ||| UInt64.ofNat off

/-- `/repo/db/format/ipdb/reader.go:115-122` initBitsCache. -/
def initBitsCache (data : Bytes) (nodeCount : Int) (v4offset : Nat) : Res (List UInt64) :=
  Res.mapM (cacheEntry data nodeCount v4offset) (List.range (2 ^ 14))

/-- Loop of `/repo/db/format/ipdb/reader.go:80-88` with `steps = 96 - i`. -/
def v4offsetLoop (data : Bytes) (nodeCount : Int) : Nat → Nat → Nat → Res Nat
  | 0, _, node => .ok node
  | steps + 1, i, node =>
    if (node : Int) < nodeCount then do
      let node ← readNode data node (if i ≥ 80 then 1 else 0)
      v4offsetLoop data nodeCount steps (i + 1) node
    else .ok node

/-- `/repo/db/format/ipdb/reader.go:281-287` HasIPv4 / HasIPv6. -/
def MetaData.HasIPv4 (m : MetaData) : Bool := (m.ipVersion &&& 1) == 1
def MetaData.HasIPv6 (m : MetaData) : Bool := (m.ipVersion &&& 2) == 2

/-- `/repo/db/format/ipdb/reader.go:48-92` newReaderFromBytes. `dec` is `json.Unmarshal` into a zero
MetaData (`none` = error). -/
def newReaderFromBytes (dec : Bytes → Option MetaData) (data : Bytes) : Res Reader :=
  if data.length < 4 then .panic
  else
    let metaLength := val (data.take 4)
    if data.length < 4 + metaLength then .err .fileSize
    else match dec ((data.drop 4).take metaLength) with
      | none => .err (.other "json")
      | some m =>
        if m.languages.length = 0 ∨ m.fields.length = 0 then .err .metaData
        else if (data.length : Int) ≠ 4 + metaLength + m.totalSize then .err .fileSize
        else
          let body := data.drop (4 + metaLength)
          let r : Reader := 
            { fileSize := data.length, nodeCount := m.nodeCount, v4offset := 0, md := m, data := body
              continentOffset := Offset FieldContinentCode m.fields, cache := none }
          if m.HasIPv4 then do
            let node ← v4offsetLoop body m.nodeCount 96 0 0
            let c ← initBitsCache body m.nodeCount node
            return { r with v4offset := node, cache := some c }
          else return r

/-- `/repo/db/format/ipdb/reader.go:108-113` getCache. -/
def Reader.getCache (c : List UInt64) (ip : IP) : Res (Nat × Nat) := do
  let i ← bytesToIndex ip
  let r ← Res.ofOption c[i]?
  return ((r >>> 5).toNat, (r &&& 0x1F).toNat)

/-- `/repo/db/format/ipdb/reader.go:216-238` search. -/
def Reader.search (r : Reader) (ip : IP) (bitCount : Nat) : Res (Nat × Nat) := do
  let node := if bitCount = 32 then r.v4offset else 0
  let (node, i) ← (match r.cache with
    | some c => if bitCount = 32 then Reader.getCache c ip else .ok (node, 0)
    | none => .ok (node, 0))
  if r.cache.isSome ∧ bitCount = 32 ∧ (node : Int) > r.nodeCount then return (node, i)
  else
    let (node, i) ← readDepth r.data r.nodeCount ip (bitCount - i) node i
    if (node : Int) > r.nodeCount then return (node, i)
    else .err .dataNotExists

/-- `/repo/db/format/ipdb/reader.go:255-268` resolve.  Go `int` is taken as unbounded: a file whose JSON
node count exceeds 2^60 in absolute value would overflow here and is outside the model. -/
def Reader.resolve (r : Reader) (node : Nat) : Res Bytes :=
  let resolved : Int := node - r.nodeCount + r.nodeCount * 8
  if resolved ≥ r.fileSize then .err .databaseError
  else if resolved < 0 ∨ (r.data.length : Int) < resolved + 2 then .panic
  else
    let o := resolved.toNat
    let size := val ((r.data.drop o).take 2)
    if o + 2 + size > r.data.length then .err .databaseError
    else .ok ((r.data.drop (o + 2)).take size)

/-- `/repo/db/format/ipdb/reader.go:186-214` find0. -/
def Reader.find0 (r : Reader) (ipv : IP) : Res (Nat × Bytes × Nat) :=
  match To4 ipv with
  | some ip =>
    if !r.md.HasIPv4 then .err .noSupportIPv4
    else do
      let (node, mask) ← r.search ip 32
      let body ← r.resolve node
      return (node, body, mask)
  | none => match To16 ipv with
    | some ip =>
      if !r.md.HasIPv6 then .err .noSupportIPv6
      else do
        let (node, mask) ← r.search ip 128
        let body ← r.resolve node
        return (node, body, mask)
    | none => .err .ipFormat

/-- `/repo/db/format/ipdb/reader.go:152-169` the switch over continent codes. -/
def continentName (s : Str) : Str :=
  if s = gs "AS" then gs "亚洲"
  else if s = gs "EU" then gs "欧洲"
  else if s = gs "NA" then gs "北美洲"
  else if s = gs "SA" then gs "南美洲"
  else if s = gs "AF" then gs "非洲"
  else if s = gs "OC" then gs "大洋洲"
  else if s = gs "AN" then gs "南极洲"
  else s

/-- `/repo/db/format/ipdb/reader.go:144-171` decodeInfo; a negative offset panics. -/
def Reader.decodeInfo (r : Reader) (body : Bytes) (off : Int) : Res (List Str) :=
  let tmp := splitByte 0x09 body
  if off + r.md.fields.length > tmp.length then .err .databaseError
  else if off < 0 then .panic
  else
    let ret := (tmp.drop off.toNat).take r.md.fields.length
    match r.continentOffset with
    | none => .ok ret
    | some i => match ret[i]? with
      | none => .panic
      | some v => .ok (ret.set i (continentName v))

/-- `/repo/db/format/ipdb/reader.go:173-184` find1. -/
def Reader.find1 (r : Reader) (addr : IP) (language : Str) : Res (List Str × Nat) :=
  match mapGet r.md.languages language with
  | none => .err .noSupportLanguage
  | some off => do
    let (_, body, mask) ← r.find0 addr
    let ret ← r.decodeInfo body off
    return (ret, mask)

/-- Loop of `/repo/db/format/ipdb/reader.go:131-133`; `ret[i]` out of range panics. -/
def fillMap : List Str → List Str → GoMap Str → Res (GoMap Str)
  | [], _, m => .ok m
  | _ :: _, [], _ => .panic
  | f :: fs, v :: vs, m => fillMap fs vs (mapSet m f v)

/-- `/repo/db/format/ipdb/reader.go:124-142` findMap. -/
def Reader.findMap (r : Reader) (addr : IP) (language : Str) : Res (IPNet × GoMap Str) := do
  let (ret, mask) ← r.find1 addr language
  let m ← fillMap r.md.fields ret []
  return (IpNet addr mask, m)

/-- `/repo/db/format/ipdb/querier.go:10-13` querier. -/
structure Querier where
  r : Reader
  queryCache : List (Nat × IpInfo)
  deriving DecidableEq, Repr

/-- `/repo/db/format/ipdb/querier.go:15-21` newQuerier. -/
def newQuerier (dec : Bytes → Option MetaData) (data : Bytes) : Res Querier := do
  let r ← newReaderFromBytes dec data
  return { r := r, queryCache := [] }

/-- `q.queryCache[node]` (newest assignment first). -/
def cacheGet : List (Nat × IpInfo) → Nat → Option IpInfo
  | [], _ => none
  | (k, v) :: m, n => if k = n then some v else cacheGet m n

/-- `/repo/db/format/ipdb/querier.go:60-77` the switch over field names. -/
def setAttr (ret : IpInfo) (f v : Str) : IpInfo :=
  if f = FieldCountryName then { ret with country := v }
  else if f = FieldRegionName then { ret with province := v }
  else if f = FieldCityName then { ret with city := v }
  else if f = FieldISPDomain then { ret with isp := v }
  else if f = fAsn then { ret with asn := v }
  else if f = FieldContinentCode then { ret with continent := v }
  else if f = fLine then { ret with line := v }
  else if f = fDistrict then { ret with district := v }
  else ret

/-- Loop of `/repo/db/format/ipdb/querier.go:59-78`; `values[i]` out of range panics (it is read only in
the matching cases; `decodeInfo` returns as many values as there are fields, so it never is). -/
def buildInfo : List Str → List Str → IpInfo → IpInfo
  | f :: fs, v :: vs, ret => buildInfo fs vs (setAttr ret f v)
  | _, _, ret => ret

/-- `/repo/db/format/ipdb/querier.go:41-80` QueryInternal: (node, info, mask). The error of find0 is
ignored by the code: it goes on with node 0, nil body and mask 0. -/
def Querier.QueryInternal (q : Querier) (ip : IP) (useCache : Bool) : Res (Nat × IpInfo × Nat) :=
  match q.r.find0 ip with
  | .panic => .panic
  | res =>
    let (node, body, mask) := match res with
      | .ok x => x
      | _ => (0, [], 0)
    match (if useCache then cacheGet q.queryCache node else none) with
    | some v => .ok (node, v, mask)
    | none => match mapGet q.r.md.languages (gs "CN") with
      | none => .err .noSupportLanguage
      | some off => do
        let values ← q.r.decodeInfo body off
        return (node, buildInfo q.r.md.fields values {}, mask)

/-- `/repo/db/format/ipdb/querier.go:23-34` BuildCache over the parsed addresses (an address that does not
parse is the nil IP, here `[]`; empty strings are skipped before). -/
def Querier.BuildCache (q : Querier) : List IP → Res Querier
  | [] => .ok q
  | ip :: ips => match q.QueryInternal ip false with
    | .panic => .panic
    | .err _ => q.BuildCache ips
    | .ok (node, info, _) => Querier.BuildCache { q with queryCache := (node, info) :: q.queryCache } ips

/-- `/repo/db/format/ipdb/querier.go:36-39` Query. -/
def Querier.Query (q : Querier) (ip : IP) : Res (IpInfo × Nat) := do
  let (_, info, mask) ← q.QueryInternal ip true
  return (info, mask)

/-- `/repo/db/format/ipdb/reader.go:289-305` version; `fmtDate` renders the build date.
The languages (`:274-280` Languages) come in the order of the association list; with other orders in `Model/MapOrder.lean`. -/
def Reader.version (fmtDate : Int → Str) (r : Reader) : VersionInfo :=
  { ipType := r.md.IpType, count := UInt32.ofInt r.md.nodeCount, build := r.md.build,
    version := if r.md.version = [] then gs "ipip.net-" ++ fmtDate r.md.build else r.md.version,
    languages := r.md.languages.map (·.1), extraInfo := r.md.extra }

end Uip.Ipdb
