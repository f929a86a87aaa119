import Verif.Model.Awdb.Decoder
import Verif.Model.Export
/-!
# The awdb reader (`/repo/db/format/awdb/{node,reader,traverse,querier,dumper,fields}.go`)

`log.Println` is left out.  The reader is never closed, so the checks for a nil buffer are left out.
-/
namespace Uip.Awdb
open Uip

/-! ## node.go -/

/-- Byte `i` of the node table as a number; out of range panics. -/
def at_ (b : Bytes) (i : Nat) : Res Nat := match b[i]? with
  | some v => .ok v.toNat
  | none => .panic

/-- `/repo/db/format/awdb/node.go:12-14,24-26,36-38` readLeft of the reader for the record size.  The shifted bytes do not overlap, so or-ing is adding. -/
def readLeft (b : Bytes) (recordSize : Nat) (n : Nat) : Res Nat :=
  if recordSize = 24 then do
    let a0 ← at_ b n; let a1 ← at_ b (n + 1); let a2 ← at_ b (n + 2)
    return a0 * 2 ^ 16 + a1 * 2 ^ 8 + a2
  else if recordSize = 28 then do
    let a3 ← at_ b (n + 3); let a0 ← at_ b n; let a1 ← at_ b (n + 1); let a2 ← at_ b (n + 2)
    return (a3 / 16 * 16) * 2 ^ 20 + a0 * 2 ^ 16 + a1 * 2 ^ 8 + a2
  else do
    let a0 ← at_ b n; let a1 ← at_ b (n + 1); let a2 ← at_ b (n + 2); let a3 ← at_ b (n + 3)
    return a0 * 2 ^ 24 + a1 * 2 ^ 16 + a2 * 2 ^ 8 + a3

/-- `/repo/db/format/awdb/node.go:16-18,28-30,40-42` readRight. -/
def readRight (b : Bytes) (recordSize : Nat) (n : Nat) : Res Nat :=
  if recordSize = 24 then do
    let a0 ← at_ b (n + 3); let a1 ← at_ b (n + 4); let a2 ← at_ b (n + 5)
    return a0 * 2 ^ 16 + a1 * 2 ^ 8 + a2
  else if recordSize = 28 then do
    let a3 ← at_ b (n + 3); let a0 ← at_ b (n + 4); let a1 ← at_ b (n + 5); let a2 ← at_ b (n + 6)
    return (a3 % 16) * 2 ^ 24 + a0 * 2 ^ 16 + a1 * 2 ^ 8 + a2
  else do
    let a0 ← at_ b (n + 4); let a1 ← at_ b (n + 5); let a2 ← at_ b (n + 6); let a3 ← at_ b (n + 7)
    return a0 * 2 ^ 24 + a1 * 2 ^ 16 + a2 * 2 ^ 8 + a3

/-! ## reader.go -/

/-- `/repo/db/format/awdb/reader.go:28-37` Reader; `nodes` is the buffer of the node reader, `data` that of the
decoder, `bufLen` the length of the whole file; `nodeOffsetMult` is `RecordSize / 4`. -/
structure Reader where
  bufLen : Nat
  nodes : Bytes
  data : Bytes
  md : Metadata
  ipv4Start : Nat
  ipv4StartBitDepth : Nat
  deriving DecidableEq, Repr

/-- A child of a node: `/repo/db/format/awdb/reader.go:262-267`. -/
def child (b : Bytes) (recordSize node : Nat) (bit : Bool) : Res Nat :=
  if bit then readRight b recordSize (node * (recordSize / 4)) else readLeft b recordSize (node * (recordSize / 4))

/-- Loop of `/repo/db/format/awdb/reader.go:110-112` for at most `steps` more rounds. -/
def ipv4StartLoop (b : Bytes) (md : Metadata) : Nat → Nat → Nat → Res (Nat × Nat)
  | 0, node, i => .ok (node, i)
  | steps + 1, node, i =>
    if node < md.nodeCount then do
      let node ← child b md.recordSize node false
      ipv4StartLoop b md steps node (i + 1)
    else .ok (node, i)

/-- `/repo/db/format/awdb/reader.go:101-115` setIPv4Start: start and depth. -/
def setIPv4Start (b : Bytes) (md : Metadata) : Res (Nat × Nat) :=
  if md.ipVersion ≠ 6 then .ok (0, 0) else ipv4StartLoop b md 96 0 0

/-- `bytes.LastIndex` (Go std) for a non-empty separator. -/
def lastIndex (sep : Bytes) : Bytes → Option Nat
  | [] => none
  | b :: s => match lastIndex sep s with
    | some i => some (i + 1)
    | none => if sep.isPrefixOf (b :: s) then some 0 else none

/-- `/repo/db/format/awdb/reader.go:21` metadataStartMarker. -/
def marker : Bytes := [0xAB, 0xCD, 0xEF, 0x69, 0x70, 0x70, 0x6C, 0x75, 0x73, 0x33, 0x36, 0x30, 0x2E, 0x63, 0x6F, 0x6D]

/-- `/repo/db/format/awdb/reader.go:44-99` FromBytes.  `uint` is 64 bits: `NodeCount * RecordSize` wraps. -/
def FromBytes (buffer : Bytes) : Res Reader :=
  if buffer.length < 2000 then .panic
  else
    let metaIn := buffer.drop (buffer.length - 2000)
    match lastIndex marker metaIn with
    | none => .err invalidErr
    | some i => do
      let md ← decodeMeta (metaIn.drop (i + 16))
      let metadataStart := i + (buffer.length - 2000)
      let searchTreeSize := md.nodeCount * md.recordSize % 2 ^ 64 / 4
      if searchTreeSize + 16 > metadataStart then .err invalidErr
      else do
        let data ← goSlice buffer (searchTreeSize + 16) metadataStart
        let nodes ← goSlice buffer 0 searchTreeSize
        if md.recordSize = 24 ∨ md.recordSize = 28 ∨ md.recordSize = 32 then do
          let (start, depth) ← setIPv4Start nodes md
          return ⟨buffer.length, nodes, data, md, start, depth⟩
        else .err invalidErr

/-- Bit `i` of an address, `/repo/db/format/awdb/reader.go:260`. -/
def ipBit (ip : IP) (i : Nat) : Res Bool := match ip[i / 8]? with
  | some b => .ok (b.toNat / 2 ^ (7 - i % 8) % 2 == 1)
  | none => .panic

/-- Loop of `/repo/db/format/awdb/reader.go:259-268` for at most `steps` more rounds. -/
def traverseLoop (r : Reader) (ip : IP) : Nat → Nat → Nat → Res (Nat × Nat)
  | 0, i, node => .ok (node, i)
  | steps + 1, i, node =>
    if node < r.md.nodeCount then do
      let bit ← ipBit ip i
      let node ← child r.nodes r.md.recordSize node bit
      traverseLoop r ip steps (i + 1) node
    else .ok (node, i)

/-- `/repo/db/format/awdb/reader.go:255-271` traverseTree. -/
def Reader.traverseTree (r : Reader) (ip : IP) (node bitCount : Nat) : Res (Nat × Nat) :=
  traverseLoop r ip bitCount 0 node

/-- `/repo/db/format/awdb/reader.go:223-253` lookupPointer: pointer, prefix length, address; a nil address is the
empty slice here. -/
def Reader.lookupPointer (r : Reader) (ip : IP) : Res (Nat × Nat × IP) :=
  if ip = [] then .err (.other "nil ip")
  else
    let ip := (To4 ip).getD ip
    if ip.length = 16 ∧ r.md.ipVersion = 4 then .err (.other "IPv6 address in an IPv4-only database")
    else do
      let (node, prefixLength) ← r.traverseTree ip (if ip.length * 8 = 32 then r.ipv4Start else 0) (ip.length * 8)
      if node = r.md.nodeCount then return (0, prefixLength, ip)
      else if node > r.md.nodeCount then return (node, prefixLength, ip)
      else .err invalidErr

/-- `/repo/db/format/awdb/reader.go:173-189` cidr. -/
def Reader.cidr (r : Reader) (ip : IP) (prefixLength : Nat) : IPNet :=
  if r.md.ipVersion = 6 ∧ ip.length = 4 ∧ r.ipv4StartBitDepth ≠ 96 then
    ⟨IPv6zero, (CIDRMask r.ipv4StartBitDepth 128).getD []⟩
  else
    let mask := (CIDRMask prefixLength (ip.length * 8)).getD []
    ⟨(ipMask ip mask).getD [], mask⟩

/-- `/repo/db/format/awdb/reader.go:281-288` resolveDataPointer: a wrapped difference is not below the length. -/
def Reader.resolveDataPointer (r : Reader) (pointer : Nat) : Res Nat :=
  if pointer < r.md.nodeCount + 16 then .err invalidErr
  else if pointer - r.md.nodeCount - 16 ≥ r.bufLen then .err invalidErr
  else .ok (pointer - r.md.nodeCount - 16)

/-- `/repo/db/format/awdb/reader.go:273-279` retrieveData into an empty interface. -/
def Reader.retrieveData (r : Reader) (pointer : Nat) : Res Val := do
  let offset ← r.resolveDataPointer pointer
  let (v, _) ← decodeAny r.data 513 offset
  return v

/-- `/repo/db/format/awdb/reader.go:143-155` LookupNetwork into an empty interface: the network and, if the `ok` flag is
true, the record. -/
def Reader.LookupNetwork (r : Reader) (ip : IP) : Res (IPNet × Option Val) := do
  let (pointer, prefixLength, ip) ← r.lookupPointer ip
  if pointer = 0 then return (r.cidr ip prefixLength, none)
  else do
    let v ← r.retrieveData pointer
    return (r.cidr ip prefixLength, some v)

/-- `/repo/db/format/awdb/fields.go:132-142` IpType. -/
def Metadata.IpType (m : Metadata) : Int :=
  if m.ipVersion = 4 then IpV4 else if m.ipVersion = 6 then IpV6 else IpAll

/-- `/repo/db/format/awdb/reader.go:290-299` version.  `int64(BuildEpoch)` is taken as exact. -/
def Reader.version (r : Reader) : VersionInfo :=
  ⟨r.md.IpType, UInt32.ofNat r.md.nodeCount, r.md.buildEpoch, gs "ipplus360" ++ r.md.databaseType, r.md.languages, []⟩

/-! ## querier.go, dumper.go -/

/-- `for k, v := range m`: each key once, with its current value (the order is not specified). -/
def mapRange {α : Type} : GoMap α → List (Str × α)
  | [] => []
  | (k, v) :: m => (k, v) :: (mapRange m).filter (fun p => p.1 ≠ k)

/-- `v.([]byte)`. -/
def asBytes : Val → Res Bytes
  | .bytes b => .ok b
  | _ => .panic

/-- `/repo/db/format/awdb/querier.go:73-76`, `/repo/db/format/awdb/dumper.go:70-73`: the record as strings; a record that
is missing, not a map, or holds something else than byte strings panics. -/
def toStrings : Option Val → Res (GoMap Str)
  | some (.map m) => Res.mapM (fun p => do let b ← asBytes p.2; return (p.1, b)) (mapRange m)
  | _ => .panic

/-- `/repo/db/format/awdb/querier.go:66-78` Find, and `/repo/db/format/awdb/dumper.go:63-75` find. -/
def Reader.Find (r : Reader) (ip : IP) : Res (IPNet × GoMap Str) := do
  let (ipNet, record) ← r.LookupNetwork ip
  let data ← toStrings record
  return (ipNet, data)

/-- `/repo/db/format/awdb/querier.go:52-61` check, `/repo/db/format/awdb/dumper.go:48-57`. -/
def Reader.check (r : Reader) : Res Unit :=
  if r.version.HasIpV4 then do
    let _ ← r.Find (goIPv4 8 8 8 8)
    return ()
  else .ok ()

/-- `/repo/db/format/awdb/querier.go:21-33` newQuerier, `/repo/db/format/awdb/dumper.go:34-46` NewDumper. -/
def open_ (data : Bytes) : Res Reader := do
  let r ← FromBytes data
  r.check
  return r

/-- A value of a `map[string]string`, the empty string when missing. -/
def strAt (m : GoMap Str) (k : Str) : Str := (mapGet m k).getD []

/-- `/repo/db/format/awdb/querier.go:35-50` Query. -/
def Reader.Query (r : Reader) (ip : IP) : Res (IpInfo × Nat) := do
  let (cidr, info) ← r.Find ip
  return ({ country := strAt info (gs "country"), province := strAt info (gs "province"), city := strAt info (gs "city"),
            isp := strAt info (gs "isp"), asn := strAt info (gs "asnumber"), continent := strAt info (gs "continent"),
            line := strAt info (gs "line") }, (maskSize cidr.mask).1)

/-- `/repo/db/format/awdb/fields.go:110-119` Fields. -/
def Fields : List Str :=
  [gs "country", gs "province", gs "city", gs "isp", gs "asnumber", gs "continent", gs "line", fDistrict]

/-- `/repo/db/format/awdb/fields.go:122-130` CommonFieldsMap. -/
def CommonFieldsMap : GoMap Str :=
  [(fCountry, gs "country"), (fProvince, gs "province"), (fCity, gs "city"), (fISP, gs "isp"), (fAsn, fAsn),
   (fContinent, gs "continent"), (fLine, fLine)]

/-- `/repo/db/format/awdb/dumper.go:10-21,59-61` dump, run for at most `fuel` rounds. -/
def dump (fuel : Nat) (data : Bytes) (ept : Option Export.Exporter) : Option (Res IpData) :=
  match open_ data with
  | .err e => some (.err e)
  | .panic => some .panic
  | .ok r => Export.BuildIPData fuel CommonFieldsMap Fields ept r.version r.Find

/-! ## traverse.go -/

/-- `/repo/db/format/awdb/traverse.go:8-12` netNode. -/
structure NetNode where
  ip : IP
  bit : Nat
  pointer : Nat
  deriving DecidableEq, Repr

/-- `/repo/db/format/awdb/traverse.go:93` `ipRight[bit>>3] |= 1 << (7 - bit%8)`. -/
def setBit (ip : IP) (bit : Nat) : IP :=
  ip.modify (bit / 8) fun b => b ||| UInt8.ofNat (2 ^ (7 - bit % 8))

/-- Inner loop of `/repo/db/format/awdb/traverse.go:81-106` for one node: the network found, if any, and the nodes still
to visit.  Each round moves one bit down and fails past the last bit, so there are at most 8 times the address length
plus one rounds. -/
def descend (r : Reader) : Nat → NetNode → List NetNode → Res (Option NetNode × List NetNode)
  | 0, _, _ => .panic
  | fuel + 1, node, nodes =>
    if node.pointer = r.md.nodeCount then .ok (none, nodes)
    else if node.pointer > r.md.nodeCount then .ok (some node, nodes)
    else if node.ip.length ≤ node.bit / 8 then .err invalidErr
    else do
      let right ← child r.nodes r.md.recordSize node.pointer true
      let left ← child r.nodes r.md.recordSize node.pointer false
      descend r fuel { node with bit := node.bit + 1, pointer := left } (⟨setBit node.ip node.bit, node.bit + 1, right⟩ :: nodes)

/-- `/repo/db/format/awdb/traverse.go:76-110` Next: the network found (`none` at the end) and the nodes still to visit
(top of the stack first).  The loop has no bound in the code; after `fuel` rounds it is still running (`none`). -/
def nextNet (r : Reader) : Nat → List NetNode → Option (Res (Option NetNode × List NetNode))
  | 0, _ => none
  | _ + 1, [] => some (.ok (none, []))
  | fuel + 1, node :: nodes => match descend r (8 * node.ip.length + 1) node nodes with
    | .ok (some n, nodes) => some (.ok (some n, nodes))
    | .ok (none, nodes) => nextNet r fuel nodes
    | .err e => some (.err e)
    | .panic => some .panic

/-- `for n.Next() { ... }; n.Err()`: all networks, in order, or the error. -/
def allNets (r : Reader) : Nat → List NetNode → Option (Res (List NetNode))
  | 0, _ => none
  | fuel + 1, nodes => match nextNet r fuel nodes with
    | none => none
    | some (.err e) => some (.err e)
    | some .panic => some .panic
    | some (.ok (none, _)) => some (.ok [])
    | some (.ok (some n, nodes)) => (allNets r fuel nodes).map fun rest => rest >>= fun l => .ok (n :: l)

/-- `/repo/db/format/awdb/traverse.go:51-71` NetworksWithin: the stack it starts with. -/
def Reader.NetworksWithin (r : Reader) (network : IPNet) : Res (List NetNode) := do
  let six := r.md.ipVersion = 6 ∧ network.ip.length = 4
  let ip := if six then (To16 network.ip).getD [] else network.ip
  let prefixLength := (maskSize network.mask).1 + (if six then 96 else 0)
  let (pointer, bit) ← r.traverseTree ip 0 prefixLength
  return [⟨ip, bit, pointer⟩]

/-- `/repo/db/format/awdb/traverse.go:22-23` allIPv4, allIPv6. -/
def allIPv4 : IPNet := ⟨[0, 0, 0, 0], [0, 0, 0, 0]⟩
def allIPv6 : IPNet := ⟨List.replicate 16 0, List.replicate 16 0⟩

/-- `/repo/db/format/awdb/traverse.go:31-40` Networks. -/
def Reader.Networks (r : Reader) : Res (List NetNode) :=
  if r.md.ipVersion = 6 then r.NetworksWithin allIPv6 else r.NetworksWithin allIPv4

/-- `/repo/db/format/awdb/traverse.go:115-124` Network: the current network and its record. -/
def Reader.Network (r : Reader) (n : NetNode) : Res (IPNet × Val) := do
  let v ← r.retrieveData n.pointer
  return (⟨n.ip, (CIDRMask n.bit (n.ip.length * 8)).getD []⟩, v)

end Uip.Awdb
