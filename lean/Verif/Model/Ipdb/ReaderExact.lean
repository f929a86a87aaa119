import Verif.Model.Ipdb.Reader
/-!
# `/repo/db/format/ipdb/{reader,querier}.go` once more, with machine integers and slice capacities

`Verif.Model.Ipdb.Reader` takes Go's `int` as unbounded and every slice as having no capacity beyond its
length.  Here `int` is the 64-bit integer (it wraps around), and the slice given to the reader has spare
capacity: `s[a:b]` of a slice panics only when `b` exceeds the *capacity*, so reads just after the end of the
file may reach the spare bytes.  `os.ReadFile`, which reads the database files (`/repo/db/query/query.go:21`,
`/repo/db/convert/dumper.go:15`), always leaves spare capacity.
-/
namespace Uip.Ipdb.Exact
open Uip

/-- Go's `int` (64 bits): the value `x` is stored as. -/
def wrap64 (x : Int) : Int := (x + 2 ^ 63) % 2 ^ 64 - 2 ^ 63

/-- A `[]byte`: its elements and the bytes of the backing array after them, up to its capacity. -/
structure Buf where
  data : Bytes
  spare : Bytes
  deriving DecidableEq, Repr

/-- `s[a:b]`: panics unless `0 ≤ a ≤ b ≤ cap(s)`. -/
def Buf.slice (s : Buf) (a b : Int) : Res Bytes :=
  if 0 ≤ a ∧ a ≤ b ∧ b ≤ s.data.length + s.spare.length then
    .ok (((s.data ++ s.spare).drop a.toNat).take (b - a).toNat)
  else .panic

/-- `/repo/db/format/ipdb/reader.go:34-43` reader (`fileSize` as in the code; `len(db.data)` is `data.data.length`). -/
structure Reader where
  fileSize : Nat
  nodeCount : Int
  v4offset : Nat
  md : MetaData
  data : Buf
  continentOffset : Option Nat
  cache : Option (List UInt64)
  deriving DecidableEq, Repr

/-- `/repo/db/format/ipdb/reader.go:250-253` readNode. -/
def readNode (data : Buf) (node indexBit : Nat) : Res Nat := do
  let off := wrap64 (node * 8 + indexBit * 4)
  let b ← data.slice off (wrap64 (off + 4))
  return val b

/-- `/repo/db/format/ipdb/reader.go:240-248` readDepth with `steps = depth - i`. -/
def readDepth (data : Buf) (nodeCount : Int) (ip : Bytes) : Nat → Nat → Nat → Res (Nat × Nat)
  | 0, node, i => .ok (node, i)
  | steps + 1, node, i =>
    if (node : Int) ≥ nodeCount then .ok (node, i)
    else do
      let bit ← ipBit ip i
      let node ← readNode data node bit
      readDepth data nodeCount ip steps node (i + 1)

/-- `/repo/db/format/ipdb/reader.go:102-106` setCache. -/
def cacheEntry (data : Buf) (nodeCount : Int) (v4offset : Nat) (i : Nat) : Res UInt64 := do
  let (node, off) ← readDepth data nodeCount (indexToBytes i) 14 v4offset 0
  return (UInt64.ofNat node <<< 5) ||| UInt64.ofNat off

/-- `/repo/db/format/ipdb/reader.go:115-122` initBitsCache. -/
def initBitsCache (data : Buf) (nodeCount : Int) (v4offset : Nat) : Res (List UInt64) :=
  Res.mapM (cacheEntry data nodeCount v4offset) (List.range (2 ^ 14))

/-- Loop of `/repo/db/format/ipdb/reader.go:80-88` with `steps = 96 - i`. -/
def v4offsetLoop (data : Buf) (nodeCount : Int) : Nat → Nat → Nat → Res Nat
  | 0, _, node => .ok node
  | steps + 1, i, node =>
    if (node : Int) < nodeCount then do
      let node ← readNode data node (if i ≥ 80 then 1 else 0)
      v4offsetLoop data nodeCount steps (i + 1) node
    else .ok node

/-- `/repo/db/format/ipdb/reader.go:48-92` newReaderFromBytes. -/
def newReaderFromBytes (dec : Bytes → Option MetaData) (data : Buf) : Res Reader := do
  let b ← data.slice 0 4
  let metaLength := val b
  if data.data.length < 4 + metaLength then .err .fileSize
  else match dec ((data.data.drop 4).take metaLength) with
    | none => .err (.other "json")
    | some m =>
      if m.languages.length = 0 ∨ m.fields.length = 0 then .err .metaData
      else if (data.data.length : Int) ≠ wrap64 (4 + metaLength + m.totalSize) then .err .fileSize
      else
        let body : Buf := ⟨data.data.drop (4 + metaLength), data.spare⟩
        let r : Reader :=
          { fileSize := data.data.length, nodeCount := m.nodeCount, v4offset := 0, md := m, data := body
            continentOffset := Offset FieldContinentCode m.fields, cache := none }
        if m.HasIPv4 then do
          let node ← v4offsetLoop body m.nodeCount 96 0 0
          let c ← initBitsCache body m.nodeCount node
          return { r with v4offset := node, cache := some c }
        else return r

/-- `/repo/db/format/ipdb/reader.go:216-238` search. -/
def Reader.search (r : Reader) (ip : IP) (bitCount : Nat) : Res (Nat × Nat) := do
  let node := if bitCount = 32 then r.v4offset else 0
  let (node, i) ← (match r.cache with
    | some c => if bitCount = 32 then Ipdb.Reader.getCache c ip else .ok (node, 0)
    | none => .ok (node, 0))
  if r.cache.isSome ∧ bitCount = 32 ∧ (node : Int) > r.nodeCount then return (node, i)
  else
    let (node, i) ← readDepth r.data r.nodeCount ip (bitCount - i) node i
    if (node : Int) > r.nodeCount then return (node, i)
    else .err .dataNotExists

/-- `/repo/db/format/ipdb/reader.go:255-268` resolve. -/
def Reader.resolve (r : Reader) (node : Nat) : Res Bytes :=
  let resolved := wrap64 (node - r.nodeCount + r.nodeCount * 8)
  if resolved ≥ r.fileSize then .err .databaseError
  else do
    let b ← r.data.slice resolved (wrap64 (resolved + 2))
    let size := val b
    if wrap64 (resolved + 2 + size) > r.data.data.length then .err .databaseError
    else r.data.slice (wrap64 (resolved + 2)) (wrap64 (resolved + 2 + size))

/-- `/repo/db/format/ipdb/reader.go:186-214` find0. -/
def Reader.find0 (r : Reader) (ipv : IP) : Res (Nat × Bytes × Nat) :=
  match To4 ipv with
  | some ip =>
    if !r.md.HasIPv4 then .err .noSupportIPv4
    else do
      let (node, mask) ← r.search ip 32
      let body ← r.resolve node
      return (node, body, mask)
  | none => match To16 ipv with
    | some ip =>
      if !r.md.HasIPv6 then .err .noSupportIPv6
      else do
        let (node, mask) ← r.search ip 128
        let body ← r.resolve node
        return (node, body, mask)
    | none => .err .ipFormat

/-- `/repo/db/format/ipdb/reader.go:144-171` decodeInfo (the slice made by `strings.Split` has no spare
capacity). -/
def Reader.decodeInfo (r : Reader) (body : Bytes) (off : Int) : Res (List Str) :=
  let tmp := splitByte 0x09 body
  let hi := wrap64 (off + r.md.fields.length)
  if hi > tmp.length then .err .databaseError
  else if off < 0 ∨ hi < off then .panic
  else
    let ret := (tmp.drop off.toNat).take (hi - off).toNat
    match r.continentOffset with
    | none => .ok ret
    | some i => match ret[i]? with
      | none => .panic
      | some v => .ok (ret.set i (continentName v))

/-- `/repo/db/format/ipdb/querier.go:10-13` querier. -/
structure Querier where
  r : Reader
  queryCache : List (Nat × IpInfo)
  deriving DecidableEq, Repr

/-- `/repo/db/format/ipdb/querier.go:15-21` newQuerier. -/
def newQuerier (dec : Bytes → Option MetaData) (data : Buf) : Res Querier := do
  let r ← newReaderFromBytes dec data
  return { r := r, queryCache := [] }

/-- `/repo/db/format/ipdb/querier.go:41-80` QueryInternal. -/
def Querier.QueryInternal (q : Querier) (ip : IP) (useCache : Bool) : Res (Nat × IpInfo × Nat) :=
  match q.r.find0 ip with
  | .panic => .panic
  | res =>
    let (node, body, mask) := match res with
      | .ok x => x
      | _ => (0, [], 0)
    match (if useCache then cacheGet q.queryCache node else none) with
    | some v => .ok (node, v, mask)
    | none => match mapGet q.r.md.languages (gs "CN") with
      | none => .err .noSupportLanguage
      | some off => do
        let values ← q.r.decodeInfo body off
        return (node, buildInfo q.r.md.fields values {}, mask)

/-- `/repo/db/format/ipdb/querier.go:23-34` BuildCache. -/
def Querier.BuildCache (q : Querier) : List IP → Res Querier
  | [] => .ok q
  | ip :: ips => match q.QueryInternal ip false with
    | .panic => .panic
    | .err _ => q.BuildCache ips
    | .ok (node, info, _) => Querier.BuildCache { q with queryCache := (node, info) :: q.queryCache } ips

/-- `/repo/db/format/ipdb/querier.go:36-39` Query. -/
def Querier.Query (q : Querier) (ip : IP) : Res (IpInfo × Nat) := do
  let (_, info, mask) ← q.QueryInternal ip true
  return (info, mask)

/-- What `os.ReadFile` returns for a file with these bytes (Go 1.19: the buffer is allocated for the size plus
one byte, at least 512; the spare bytes are zero). -/
def readFile (bytes : Bytes) : Buf := ⟨bytes, List.replicate (max 512 (bytes.length + 1) - bytes.length) 0⟩

end Uip.Ipdb.Exact
