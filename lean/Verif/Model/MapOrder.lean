import Verif.Model.Ipdb.Dump
import Verif.Model.Awdb.Reader
/-!
# The loops over Go maps, with the iteration order as a parameter

Go visits the entries of a map in an order that changes from one `range` to the next.  The other modules search or filter
the association list instead.  Here each `range` over a map is written out with the order it takes; `Orders` has one for
every `range` of a dump.
-/
namespace Uip.MapOrder
open Uip Uip.Awdb Uip.Export

/-- `/repo/db/field/fields.go:78-88` ExtKeys; `os k` is the order of the `k`-th `range f`. -/
def ExtKeys (os : Nat → List (Str × Str)) : Nat → List Str → List Str
  | _, [] => []
  | k, v :: vs => ((os k).filter (fun p => v == p.2)).map (·.1) ++ ExtKeys os (k + 1) vs

/-- Inner loop of `/repo/db/field/export/export.go:116-122`. -/
def selectLoop (f : Str) : List (Str × Str) → Str × Str
  | [] => ([], [])
  | (k, v) :: o => if k = f then (f, v) else selectLoop f o

/-- `/repo/db/field/export/export.go:112-126` Select; `os k` is the order of the `k`-th `range fMap`. -/
def Select (os : Nat → List (Str × Str)) : Nat → List Str → List (Str × Str)
  | _, [] => []
  | k, f :: fs => selectLoop f (os k) :: Select os (k + 1) fs

/-- Loop of `/repo/db/format/awdb/querier.go:74-76`, `/repo/db/format/awdb/dumper.go:71-73`. -/
def stringsLoop : List (Str × Val) → GoMap Str → Res (GoMap Str)
  | [], data => .ok data
  | (k, v) :: o, data => do
    let b ← asBytes v
    stringsLoop o (mapSet data k b)

/-- `/repo/db/format/awdb/querier.go:73-76`, `/repo/db/format/awdb/dumper.go:70-73`; `order` gives the order for a map. -/
def toStrings (order : GoMap Val → List (Str × Val)) : Option Val → Res (GoMap Str)
  | some (.map m) => stringsLoop (order m) []
  | _ => .panic

/-- `/repo/db/format/awdb/querier.go:66-78` Find, and `/repo/db/format/awdb/dumper.go:63-75` find. -/
def Find (order : GoMap Val → List (Str × Val)) (r : Awdb.Reader) (ip : IP) : Res (IPNet × GoMap Str) := do
  let (ipNet, record) ← r.LookupNetwork ip
  let data ← toStrings order record
  return (ipNet, data)

/-- `/repo/db/format/awdb/querier.go:21-33,52-61` newQuerier with its check, `/repo/db/format/awdb/dumper.go:34-57`. -/
def openAwdb (order : GoMap Val → List (Str × Val)) (data : Bytes) : Res Awdb.Reader := do
  let r ← FromBytes data
  (if r.version.HasIpV4 then do
    let _ ← Find order r (goIPv4 8 8 8 8)
    return ()
  else .ok ())
  return r

/-- `/repo/db/format/awdb/querier.go:35-50` Query. -/
def Query (order : GoMap Val → List (Str × Val)) (r : Awdb.Reader) (ip : IP) : Res (IpInfo × Nat) := do
  let (cidr, info) ← Find order r ip
  return ({ country := strAt info (gs "country"), province := strAt info (gs "province"), city := strAt info (gs "city"),
            isp := strAt info (gs "isp"), asn := strAt info (gs "asnumber"), continent := strAt info (gs "continent"),
            line := strAt info (gs "line") }, (maskSize cidr.mask).1)

/-- `/repo/db/field/export/export.go:210-225`: the values of one row. -/
def rowValues (os : Nat → List (Str × Str)) (fieldMap : GoMap Str) (fields : List Str) (ept : Option Exporter) (info : GoMap Str) :
    Res (List Str) :=
  match ept with
  | some e => e.Export (Select os 0 fields) info
  | none => .ok (fields.map fun v => match mapGet fieldMap v with
    | none => []
    | some infK => match mapGet info infK with
      | some f => f
      | none => [])

/-- The `for` loop of `/repo/db/field/export/export.go:203-240`; `n` counts the rounds. -/
def buildLoop (find : Nat → Export.Find) (row : Nat → GoMap Str → Res (List Str)) : Nat → Nat → IP → List IpRaw → Option (Res (List IpRaw))
  | 0, _, _, _ => none
  | fuel + 1, n, marker, acc =>
    match find n marker with
    | .err e => some (.err e)
    | .panic => some .panic
    | .ok (cidr, info) => match row n info with
      | .err e => some (.err e)
      | .panic => some .panic
      | .ok values =>
        let acc := acc ++ [⟨cidr, values⟩]
        match LastIP cidr with
        | .ok last =>
          if IsAllMask last then some (.ok acc)
          else match NextStart cidr with
            | .ok marker => buildLoop find row fuel (n + 1) marker acc
            | .err e => some (.err e)
            | .panic => some .panic
        | .err e => some (.err e)
        | .panic => some .panic

/-- The orders of all `range` loops over maps in one dump: of the field map for the field names and in round `n` for the
row, of the records in round `n` and in the check at opening, and of the languages. -/
structure Orders where
  ext : Nat → List (Str × Str)
  sel : Nat → Nat → List (Str × Str)
  record : Nat → GoMap Val → List (Str × Val)
  check : GoMap Val → List (Str × Val)
  langs : GoMap Int → List (Str × Int)

/-- `/repo/db/field/export/export.go:188-243` BuildIPData. -/
def BuildIPData (o : Orders) (fuel : Nat) (fieldMap : GoMap Str) (fields : List Str) (ept : Option Exporter)
    (version : VersionInfo) (find : Nat → Export.Find) : Option (Res IpData) :=
  let fs := match ept with
    | none => ExtKeys o.ext 0 fields
    | some e => e.fields
  (buildLoop find (fun n => rowValues (o.sel n) fieldMap fs ept) fuel 0 (firstMarker version) []).map fun r =>
    r >>= fun ips => .ok ⟨fs, version, ips⟩

/-- `/repo/db/format/awdb/dumper.go:10-21,59-61` dump. -/
def dumpAwdb (o : Orders) (fuel : Nat) (data : Bytes) (ept : Option Exporter) : Option (Res IpData) :=
  match openAwdb o.check data with
  | .err e => some (.err e)
  | .panic => some .panic
  | .ok r => BuildIPData o fuel Awdb.CommonFieldsMap Awdb.Fields ept r.version (fun n => Find (o.record n) r)

/-- `/repo/db/format/ipdb/reader.go:289-305` version with `:274-280` Languages. -/
def version (langs : GoMap Int → List (Str × Int)) (fmtDate : Int → Str) (r : Ipdb.Reader) : VersionInfo :=
  { ipType := r.md.IpType, count := UInt32.ofInt r.md.nodeCount, build := r.md.build,
    version := if r.md.version = [] then gs "ipip.net-" ++ fmtDate r.md.build else r.md.version,
    languages := (langs r.md.languages).map (·.1), extraInfo := r.md.extra }

/-- `/repo/db/format/ipdb/dumper.go:9-24` dump. -/
def dumpIpdb (o : Orders) (fuel : Nat) (dec : Bytes → Option Ipdb.MetaData) (fmtDate : Int → Str) (data : Bytes)
    (ept : Option Exporter) : Option (Res IpData) :=
  match Ipdb.newReaderFromBytes dec data with
  | .err e => some (.err e)
  | .panic => some .panic
  | .ok r => BuildIPData o fuel Ipdb.CommonFieldsMap r.md.fields ept (version o.langs fmtDate r)
      (fun _ ip => r.findMap ip (gs "CN"))

end Uip.MapOrder
