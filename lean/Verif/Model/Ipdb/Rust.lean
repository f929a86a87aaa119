import Verif.Model.Ipdb.Fields
import Verif.Model.GoNet
/-!
# The Rust reader, `/repo/rust/src`

`i32` arithmetic is taken to wrap (the release profile; a debug build panics instead).  A slice or vector
access out of bounds is `Res.panic`, an `Err` is `Res.err`.  Strings are their UTF-8 encodings.

Parameters: `dec`, serde_json on the metadata; `utf8`, `String::from_utf8_lossy`.
-/
namespace Uip.Rust
open Uip Uip.Ipdb

/-- Wrapping to `i32`. -/
def i32 (x : Int) : Int := (x + 2 ^ 31) % 2 ^ 32 - 2 ^ 31

/-- `/repo/rust/src/formats/ipdb/reader.rs:51-59` Reader (`_result_cache` is never used). -/
structure RReader where
  md : MetaData
  fileSize : Int
  nodeCount : Int
  data : Bytes
  v4offset : Int
  ipv4BitsCache : List Int
  deriving DecidableEq, Repr

/-- `reader.rs:98-101` read_node with `BigEndian::read_i32`. -/
def readNode (data : Bytes) (node index : Int) : Res Int :=
  let off := i32 (i32 (node * 8) + index * 4)
  if off < 0 ∨ (data.length : Int) < off + 4 then .panic
  else .ok (i32 (val ((data.drop off.toNat).take 4)))

/-- The bit of `reader.rs:252`. -/
def bitAt (b : Bytes) (i : Nat) : Res Int :=
  match b[i / 8]? with
  | some x => .ok (1 &&& ((0xFF &&& x.toNat) >>> (7 - i % 8)) : Nat)
  | none => .panic

/-- `reader.rs:246-256` read_depth with `steps = depth - start`. -/
def readDepth (data : Bytes) (nodeCount : Int) (b : Bytes) : Nat → Int → Nat → Res Int
  | 0, node, _ => .ok node
  | steps + 1, node, i =>
    if node ≥ nodeCount then .ok node
    else do
      let bit ← bitAt b i
      let node ← readNode data node bit
      readDepth data nodeCount b steps node (i + 1)

/-- `reader.rs:107-109` the two bytes of a cache index. -/
def indexToBytes (i : Nat) : Bytes := [UInt8.ofNat ((i <<< 4) >>> 8), UInt8.ofNat (0xFF &&& (i <<< 4))]

/-- `reader.rs:240-244` bytes_to_index. -/
def bytesToIndex : Bytes → Res Nat
  | b0 :: b1 :: _ => .ok (((0xFF &&& b0.toNat) <<< 8 >>> 4) ||| ((0xFF &&& b1.toNat) >>> 4))
  | _ => .panic

/-- `reader.rs:103-114` init_cache. -/
def initCache (data : Bytes) (nodeCount v4offset : Int) : Res (List Int) :=
  Res.mapM (fun i => readDepth data nodeCount (indexToBytes i) 12 v4offset 0) (List.range (2 ^ 12))

/-- Loop of `reader.rs:79-89` with `steps = 96 - i`: the node is read before it is tested. -/
def v4Loop (data : Bytes) (nodeCount : Int) : Nat → Nat → Int → Res Int
  | 0, _, node => .ok node
  | steps + 1, i, node => do
    let node ← readNode data node (if i ≥ 80 then 1 else 0)
    if node ≥ nodeCount then return node else v4Loop data nodeCount steps (i + 1) node

/-- `reader.rs:26-46` MetaData::new: the metadata and its size.  A negative size sign-extends to a huge
`usize`; adding 4 to it overflows for -1..-4 (a panic, directly or when slicing). -/
def MetaDataNew (dec : Bytes → Option MetaData) (buf : Bytes) : Res (MetaData × Nat) :=
  if buf.length < 4 then .err .fileSize
  else
    let metaSize := i32 (val (buf.take 4))
    if metaSize < 0 then (if metaSize ≥ -4 then .panic else .err .fileSize)
    else if (buf.length : Int) < metaSize + 4 then .err .fileSize
    else match dec ((buf.drop 4).take metaSize.toNat) with
      | none => .err .metaData
      | some m => .ok (m, metaSize.toNat)

/-- `reader.rs:116-122` is_ipv4, is_ipv6. -/
def RReader.isIPv4 (r : RReader) : Bool := (r.md.ipVersion &&& 1) == 1
def RReader.isIPv6 (r : RReader) : Bool := (r.md.ipVersion &&& 2) == 2

/-- `reader.rs:62-96` Reader::new. -/
def Reader (dec : Bytes → Option MetaData) (bytes : Bytes) : Res RReader := do
  let (m, metaSize) ← MetaDataNew dec bytes
  if i32 (i32 (m.totalSize + i32 metaSize) + 4) ≠ i32 bytes.length then .err .fileSize
  else
    let r : RReader := { md := m, fileSize := i32 bytes.length, nodeCount := m.nodeCount, data := bytes.drop (metaSize + 4),
                         v4offset := 0, ipv4BitsCache := [] }
    if r.isIPv4 then
      let node ← v4Loop r.data r.nodeCount 96 0 0
      let c ← initCache r.data r.nodeCount node
      return { r with v4offset := node, ipv4BitsCache := c }
    else return r

/-- `reader.rs:217-238` find_node. -/
def RReader.findNode (r : RReader) (b : Bytes) : Res Int := do
  let bit := b.length * 8
  let node0 : Int := if bit = 32 then r.v4offset else 0
  let (node, i, hit) ← (if r.ipv4BitsCache.length > 0 ∧ bit = 32 then do
      let index ← bytesToIndex b
      let node ← Res.ofOption r.ipv4BitsCache[index]?
      return (node, 12, decide (node ≥ r.nodeCount))
    else .ok (node0, 0, false))
  if hit then return node
  else
    let node ← readDepth r.data r.nodeCount b (bit - i) node i
    if node ≥ r.nodeCount then return node else .err .dataNotExists

/-- `reader.rs:177-190` find0. -/
def RReader.find0 (r : RReader) (ip : Bytes) : Res Int :=
  if ip.length = 16 ∧ r.isIPv6 = false then .err .noSupportIPv6
  else if ip.length = 4 ∧ r.isIPv4 = false then .err .noSupportIPv4
  else if ip.length ≠ 16 ∧ ip.length ≠ 4 then .err .ipFormat
  else r.findNode ip

/-- `reader.rs:192-215` resolve_node: the language's offset is not used, all tabs split. -/
def RReader.resolveNode (utf8 : Bytes → Str) (r : RReader) (node : Int) (lang : Str) : Res (List Str) :=
  match mapGet r.md.languages lang with
  | none => .err .noSupportLanguage
  | some _ =>
    let resolved := i32 (i32 (node - r.nodeCount) + i32 (r.nodeCount * 8))
    if resolved ≥ r.fileSize then .err .databaseError
    else if resolved < 0 ∨ (r.data.length : Int) < resolved + 2 then .panic
    else
      let o := resolved.toNat
      let size := val ((r.data.drop o).take 2)
      if r.data.length < o + 2 + size then .err .databaseError
      else .ok (splitByte 0x09 (utf8 ((r.data.drop (o + 2)).take size)))

/-- `reader.rs:160-169` the inner match: unknown values leave the continent as it is. -/
def continentName (s old : Str) : Str :=
  if s = gs "AS" then gs "亚洲"
  else if s = gs "EU" then gs "欧洲"
  else if s = gs "NA" then gs "北美洲"
  else if s = gs "SA" then gs "南美洲"
  else if s = gs "AF" then gs "非洲"
  else if s = gs "OC" then gs "大洋洲"
  else if s = gs "AN" then gs "南极洲"
  else old

/-- `reader.rs:151-172` one arm of the match; `v` is `val[i]` (`none`: out of range, panics where it is read). -/
def setAttr (info : IpInfo) (f : Str) (v : Option Str) : Res IpInfo :=
  if f = gs "country_name" then Res.ofOption v >>= fun v => .ok { info with country := v }
  else if f = gs "region_name" then Res.ofOption v >>= fun v => .ok { info with province := v }
  else if f = gs "city_name" then Res.ofOption v >>= fun v => .ok { info with city := v }
  else if f = gs "isp_domain" then Res.ofOption v >>= fun v => .ok { info with isp := v }
  else if f = gs "asn" then Res.ofOption v >>= fun v => .ok { info with asn := v }
  else if f = gs "line" then Res.ofOption v >>= fun v => .ok { info with line := v }
  else if f = gs "district" then Res.ofOption v >>= fun v => .ok { info with district := v }
  else if f = gs "continent_code" then
    Res.ofOption v >>= fun v => .ok { info with continent := continentName v info.continent }
  else .ok info

/-- `reader.rs:139-175` build_info: the loop over the fields. -/
def buildInfo : List Str → List Str → IpInfo → Res IpInfo
  | [], _, info => .ok info
  | f :: fs, vs, info => do
    let info ← setAttr info f vs.head?
    buildInfo fs vs.tail info

/-- `reader.rs:124-137` find, as called by `/repo/rust/src/formats/ipdb.rs:28-30` query (language "CN"). -/
def query (utf8 : Bytes → Str) (r : RReader) (ip : Bytes) : Res IpInfo := do
  let node ← r.find0 ip
  let v ← r.resolveNode utf8 node (gs "CN")
  buildInfo r.md.fields v {}

/-- `/repo/rust/src/data.rs:34-41` VersionInfo; a missing `extra_info` is the empty list. -/
structure RVersion where
  ipType : Int
  count : Int
  build : Int
  version : Str
  languages : List Str
  extraInfo : List Str
  deriving DecidableEq, Repr

/-- `/repo/rust/src/formats/ipdb.rs:36-49` version.  The metadata always has a version here (a file without the key,
which this project never writes, would get "ipip.net-" and the build number). -/
def version (r : RReader) : RVersion :=
  { ipType := r.md.ipVersion, count := r.md.nodeCount, build := r.md.build, version := r.md.version
    languages := [gs "CN"], extraInfo := r.md.extra }

/-- `/repo/rust/src/data.rs:44-50` has_ipv4, has_ipv6. -/
def has_ipv4 (v : RVersion) : Bool := (v.ipType.toNat &&& 1) != 0
def has_ipv6 (v : RVersion) : Bool := (v.ipType.toNat &&& 2) != 0

/-- `/repo/rust/src/query.rs:28-44` query_str; `parse` is `str::parse::<IpAddr>` followed by `octets`. -/
def queryStr (parse : Str → Option Bytes) (utf8 : Bytes → Str) (r : RReader) (ip : Str) : Res IpInfo :=
  match parse ip with
  | some b => query utf8 r b
  | none => .err .ipFormat

/-- `/repo/rust/src/query.rs:46-49` query_u32: the big-endian bytes. -/
def queryU32 (utf8 : Bytes → Str) (r : RReader) (ip : UInt32) : Res IpInfo :=
  query utf8 r [(ip >>> 24).toUInt8, (ip >>> 16).toUInt8, (ip >>> 8).toUInt8, ip.toUInt8]

end Uip.Rust
