import Verif.Model.Ipdb.Fields
import Verif.Model.GoNet
/-!
# The Java reader, `/repo/java/src/main/java/qiniu/uip/db`

Java `int` is a signed 32-bit number; arithmetic wraps.  A Java array access out of bounds or a null
dereference is an unchecked exception, here `Res.panic`; the checked exceptions of the API
(`InvalidDatabaseException`, `IPFormatException`) are `Res.err`.  Strings are their UTF-8 encodings, `null`
is `none`.

Parameters: `dec`, Gson on the metadata text (`none` = an exception or null); `utf8`, the decoding
`new String(bytes, UTF_8)` followed by encoding again (malformed input is replaced).
-/
namespace Uip.Java
open Uip Uip.Ipdb

/-- Truncation to a 32-bit signed integer (Java `int` arithmetic; `Long.intValue`). -/
def i32 (x : Int) : Int := (x + 2 ^ 31) % 2 ^ 32 - 2 ^ 31

/-- `/repo/java/src/main/java/qiniu/uip/db/IpInfo.java:3-16` IpInfo; a field never assigned is null. -/
structure JInfo where
  country : Option Str := none
  district : Option Str := none
  province : Option Str := none
  city : Option Str := none
  asn : Option Str := none
  isp : Option Str := none
  continent : Option Str := none
  line : Option Str := none
  deriving DecidableEq, Repr

/-- `/repo/java/src/main/java/qiniu/uip/db/format/ipdb/Reader.java:14-24` Reader. -/
structure JReader where
  md : MetaData
  fileSize : Int
  nodeCount : Int
  data : Bytes
  v4offset : Int
  ipv4BitsCache : Option (List Int)
  resultCache : Option (List (Int × JInfo))
  deriving DecidableEq, Repr

/-- `Reader.java:288-297` readNode with `bytesToLong` (82-92): the four bytes as an `int`. -/
def readNode (data : Bytes) (node index : Int) : Res Int :=
  let off := i32 (i32 (node * 8) + index * 4)
  if off < 0 ∨ (data.length : Int) < off + 4 then .panic
  else .ok (i32 (val ((data.drop off.toNat).take 4)))

/-- The bit of `Reader.java:257`, `1 & ((0xFF & binary[i / 8]) >> 7 - (i % 8))`. -/
def bitAt (binary : Bytes) (i : Nat) : Res Int :=
  match binary[i / 8]? with
  | some b => .ok (1 &&& ((0xFF &&& b.toNat) >>> (7 - i % 8)) : Nat)
  | none => .panic

/-- `Reader.java:252-260` readDepth with `steps = depth - i`. -/
def readDepth (data : Bytes) (nodeCount : Int) (binary : Bytes) : Nat → Int → Nat → Res Int
  | 0, node, _ => .ok node
  | steps + 1, node, i =>
    if node ≥ nodeCount then .ok node
    else do
      let bit ← bitAt binary i
      let node ← readNode data node bit
      readDepth data nodeCount binary steps node (i + 1)

/-- `Reader.java:76-80` indexToBytes (cacheDepth = 12). -/
def indexToBytes (i : Nat) : Bytes := [UInt8.ofNat ((i <<< 4) >>> 8), UInt8.ofNat (0xFF &&& (i <<< 4))]

/-- `Reader.java:176-180` bytesToIndex. -/
def bytesToIndex : Bytes → Res Nat
  | b0 :: b1 :: _ => .ok (((0xFF &&& b0.toNat) <<< 8 >>> 4) ||| ((0xFF &&& b1.toNat) >>> 4))
  | _ => .panic

/-- `Reader.java:183-191` initCache. -/
def initCache (data : Bytes) (nodeCount v4offset : Int) : Res (List Int) :=
  Res.mapM (fun i => readDepth data nodeCount (indexToBytes i) 12 v4offset 0) (List.range (2 ^ 12))

/-- Loop of `Reader.java:61-67` with `steps = 96 - i`. -/
def v4Loop (data : Bytes) (nodeCount : Int) : Nat → Nat → Int → Res Int
  | 0, _, node => .ok node
  | steps + 1, i, node =>
    if node < nodeCount then do
      let node ← readNode data node (if i ≥ 80 then 1 else 0)
      v4Loop data nodeCount steps (i + 1) node
    else .ok node

/-- `Arrays.copyOfRange(a, from, to)` (Java std) for `byte[]`: throws unless `0 ≤ from ≤ length` and
`from ≤ to`; pads with zeros. -/
def copyOfRange (a : Bytes) (lo hi : Int) : Res Bytes :=
  if lo > hi ∨ lo < 0 ∨ (a.length : Int) < lo then .panic
  else
    let part := (a.drop lo.toNat).take (hi - lo).toNat
    .ok (part ++ List.replicate ((hi - lo).toNat - part.length) 0)

/-- `Reader.java:26-74` the constructor. -/
def Reader (dec : Bytes → Option MetaData) (data : Bytes) : Res JReader :=
  let fileSize : Int := data.length
  if fileSize < 5 then .err .fileSize
  else
    let metaLength := i32 (val (data.take 4))
    match copyOfRange data 4 (i32 (metaLength + 4)) with
    | .ok metaBytes => match dec metaBytes with
      | none => .err .metaData
      | some m =>
        if i32 (i32 (m.totalSize + metaLength) + 4) ≠ fileSize then .err .fileSize
        else do
          let body ← copyOfRange data (i32 (metaLength + 4)) fileSize
          let r : JReader := { md := m, fileSize := fileSize, nodeCount := m.nodeCount, data := body, v4offset := 0,
                               ipv4BitsCache := none, resultCache := none }
          if m.ipVersion &&& 1 = 1 then
            let node ← v4Loop body m.nodeCount 96 0 0
            let c ← initCache body m.nodeCount node
            return { r with v4offset := node, ipv4BitsCache := some c }
          else return r
    | _ => .err .metaData

/-- `Reader.java:299-305` isIPv4, isIPv6. -/
def JReader.isIPv4 (r : JReader) : Bool := (r.md.ipVersion &&& 1) == 1
def JReader.isIPv6 (r : JReader) : Bool := (r.md.ipVersion &&& 2) == 2

/-- `Reader.java:262-286` findNode; `none` is the NotFoundException. -/
def JReader.findNode (r : JReader) (binary : Bytes) : Res (Option Int) := do
  let bit := binary.length * 8
  let node0 : Int := if bit = 32 then r.v4offset else 0
  let (node, i, hit) ← (match r.ipv4BitsCache with
    | some c =>
      if bit = 32 then do
        let index ← bytesToIndex binary
        let node ← Res.ofOption c[index]?
        return (node, 12, decide (node ≥ r.nodeCount))
      else .ok (node0, 0, false)
    | none => .ok (node0, 0, false))
  if hit then return some node
  else
    let node ← readDepth r.data r.nodeCount binary (bit - i) node i
    if node ≥ r.nodeCount then return some node else return none

/-- `Reader.java:193-215` find0: a NotFoundException becomes node 0. -/
def JReader.find0 (r : JReader) (ip : Bytes) : Res Int :=
  if ip.length = 16 ∧ r.isIPv6 = false then .err .noSupportIPv6
  else if ip.length = 4 ∧ r.isIPv4 = false then .err .noSupportIPv4
  else if ip.length ≠ 16 ∧ ip.length ≠ 4 then .err .ipFormat
  else do
    match ← r.findNode ip with
    | some node => return node
    | none => return 0

/-- `String.split("\t", limit)` (Java std) for a positive limit: at most `limit` parts. -/
def splitPos : Nat → Str → List Str
  | 0, s => [s]
  | 1, s => [s]
  | n + 2, s =>
    match s.dropWhile (· != 0x09) with
    | [] => [s]
    | _ :: r => s.takeWhile (· != 0x09) :: splitPos (n + 1) r

/-- `String.split("\t", limit)` (Java std); limit 0 drops trailing empty parts when a tab occurs. -/
def split (s : Str) (limit : Nat) : List Str :=
  if limit = 0 then
    (if (0x09 : UInt8) ∈ s then ((splitByte 0x09 s).reverse.dropWhile (· == [])).reverse else [s])
  else splitPos limit s

/-- `Arrays.copyOfRange` for `String[]`: pads with null. -/
def copyStrings (a : List Str) (lo : Int) (n : Nat) : Res (List (Option Str)) :=
  if lo < 0 ∨ (a.length : Int) < lo then .panic
  else
    let part := (a.drop lo.toNat).take n
    .ok (part.map some ++ List.replicate (n - part.length) none)

/-- `Reader.java:223-250` resolveNode; a missing language gives null. -/
def JReader.resolveNode (utf8 : Bytes → Str) (r : JReader) (node : Int) (language : Str) :
    Res (Option (List (Option Str))) :=
  match mapGet r.md.languages language with
  | none => .ok none
  | some off =>
    let resolved := i32 (i32 (node - r.nodeCount) + i32 (r.nodeCount * 8))
    if resolved ≥ r.fileSize then .err .databaseError
    else if resolved < 0 ∨ (r.data.length : Int) < resolved + 2 then .panic
    else
      let o := resolved.toNat
      let size := val ((r.data.drop o).take 2)
      if r.data.length < o + 2 + size then .err .databaseError
      else do
        let text := utf8 ((r.data.drop (o + 2)).take size)
        let parts ← copyStrings (split text (r.md.fields.length * r.md.languages.length)) off r.md.fields.length
        return some parts

/-- `Reader.java:142-166` the inner switch. -/
def continentName (s : Str) : Str :=
  if s = gs "AS" then gs "亚洲"
  else if s = gs "EU" then gs "欧洲"
  else if s = gs "NA" then gs "北美洲"
  else if s = gs "SA" then gs "南美洲"
  else if s = gs "AF" then gs "非洲"
  else if s = gs "OC" then gs "大洋洲"
  else if s = gs "AN" then gs "南极洲"
  else s

/-- `Reader.java:120-168` the outer switch for one field: the case "asn" has no `break` and goes on into
"line"; switching on a null continent throws. -/
def setAttr (info : JInfo) (f : Str) (v : Option Str) : Res JInfo :=
  if f = gs "country_name" then .ok { info with country := v }
  else if f = gs "region_name" then .ok { info with province := v }
  else if f = gs "city_name" then .ok { info with city := v }
  else if f = gs "isp_domain" then .ok { info with isp := v }
  else if f = gs "asn" then .ok { info with asn := v, line := v }
  else if f = gs "line" then .ok { info with line := v }
  else if f = gs "district" then .ok { info with district := v }
  else if f = gs "continent_code" then
    match v with
    | none => .panic
    | some s => .ok { info with continent := some (continentName s) }
  else .ok info

/-- Loop of `Reader.java:119-169`; `fields[i]` out of range throws. -/
def buildInfo : List Str → List (Option Str) → JInfo → Res JInfo
  | _, [], info => .ok info
  | [], _ :: _, _ => .panic
  | f :: fs, v :: vs, info => do
    let info ← setAttr info f v
    buildInfo fs vs info

/-- `HashMap.get` on the result cache (newest first). -/
def cacheGet : List (Int × JInfo) → Int → Option JInfo
  | [], _ => none
  | (k, v) :: m, n => if k = n then some v else cacheGet m n

/-- `Reader.java:105-174` query up to the `put`: the node and the information; `cache` consults the result
cache. -/
def JReader.query (utf8 : Bytes → Str) (r : JReader) (ip : Bytes) (cache : Bool) : Res (Int × JInfo) := do
  let node ← r.find0 ip
  match (if cache then (r.resultCache.bind fun c => cacheGet c node) else none) with
  | some info => return (node, info)
  | none =>
    match ← r.resolveNode utf8 node (gs "CN") with
    | none => .err .ipFormat
    | some parts =>
      let info ← buildInfo r.md.fields parts {}
      return (node, info)

/-- Loop of `Reader.java:96-102`: every exception is caught. -/
def buildCacheLoop (utf8 : Bytes → Str) (r : JReader) : List Bytes → List (Int × JInfo) → List (Int × JInfo)
  | [], c => c
  | ip :: ips, c =>
    match r.query utf8 ip false with
    | .ok (node, info) => buildCacheLoop utf8 r ips ((node, info) :: c)
    | _ => buildCacheLoop utf8 r ips c

/-- `Reader.java:94-103` buildCache. -/
def JReader.buildCache (utf8 : Bytes → Str) (r : JReader) (ips : List Bytes) : JReader :=
  { r with resultCache := some (buildCacheLoop utf8 r ips []) }

/-- `/repo/java/src/main/java/qiniu/uip/db/Query.java:71-73` with `format/ipdb/Ipdb.java:20-23`: query(byte[]). -/
def query (utf8 : Bytes → Str) (r : JReader) (ip : Bytes) : Res JInfo := do
  let (_, info) ← r.query utf8 ip true
  return info

/-- `/repo/java/src/main/java/qiniu/uip/db/VersionInfo.java:9-14` VersionInfo. -/
structure JVersion where
  ipType : Int
  count : Int
  build : Int
  version : Str
  languages : List Str
  extraInfo : List Str
  deriving DecidableEq, Repr

/-- `/repo/java/src/main/java/qiniu/uip/db/format/ipdb/Ipdb.java:30-45` version; `dec10` is the decimal text of an
`int`.  A missing version and an empty one are the same to `Strings.isEmpty`. -/
def version (dec10 : Int → Str) (r : JReader) : JVersion :=
  { ipType := r.md.ipVersion, count := r.md.nodeCount, build := r.md.build
    version := if r.md.version = [] then gs "ipip.net-" ++ dec10 r.md.build else r.md.version
    languages := [gs "CN"], extraInfo := r.md.extra }

/-- `/repo/java/src/main/java/qiniu/uip/db/VersionInfo.java:20-26` hasIpV4, hasIpV6. -/
def hasIpV4 (v : JVersion) : Bool := (v.ipType.toNat &&& 1) != 0
def hasIpV6 (v : JVersion) : Bool := (v.ipType.toNat &&& 2) != 0

/-- `/repo/java/src/main/java/qiniu/uip/db/Query.java:31-46` create(data, ".ipdb"): open, and warm the result
cache with a fixed list of addresses (`ips`) when the file has IPv4. -/
def create (dec : Bytes → Option MetaData) (utf8 : Bytes → Str) (ips : List Bytes) (data : Bytes) : Res JReader := do
  let r ← Reader dec data
  if hasIpV4 (version (fun _ => []) r) then return r.buildCache utf8 ips else return r

/-- `String.indexOf` (Java std) of one ASCII character, -1 if absent (byte offsets; only the sign and zero
matter here). -/
def indexOf (c : UInt8) : Str → Int
  | [] => -1
  | b :: s => if b = c then 0 else if indexOf c s < 0 then -1 else indexOf c s + 1

/-- `/repo/java/src/main/java/qiniu/uip/db/Query.java:48-69` query(String).  `v4`, `v6` are
`IPAddress.textToNumericFormatV4/V6` (`sun.net.util.IPAddressUtil`). -/
def queryText (v4 v6 : Str → Option Bytes) (utf8 : Bytes → Str) (r : JReader) (addr : Str) : Res JInfo :=
  if addr = [] then .err .ipFormat
  else if indexOf 0x3A addr > 0 then
    match v6 addr with
    | none => .err .ipFormat
    | some ip => query utf8 r ip
  else if indexOf 0x2E addr > 0 then
    match v4 addr with
    | none => .err .ipFormat
    | some ip => query utf8 r ip
  else .err .ipFormat

end Uip.Java
