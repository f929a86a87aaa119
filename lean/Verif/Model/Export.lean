import Verif.Model.Inf
/-!
# Package `db/field/export` (`/repo/db/field/export/export.go`) and `db/field/fields.go`

A Go `map[string]string` is a `GoMap Str`; the maps passed in (`CommonFieldsMap`) have distinct keys.
-/
namespace Uip.Export
open Uip

/-- `/repo/db/field/export/export.go:25-32` _Filter. -/
structure Filter where
  keyOffset : Nat
  neg : Bool
  values : List Str
  fieldsOffsets : List Nat
  deriving DecidableEq, Repr

/-- `/repo/db/field/export/export.go:34-37` Exporter. -/
structure Exporter where
  fields : List Str
  filters : List Filter
  deriving DecidableEq, Repr

/-- `/repo/db/field/export/export.go:43-54` offsets: for each key its first position, if any. -/
def offsets (fields : List Str) : List Str → List Nat
  | [] => []
  | k :: ks => match Offset k fields with
    | some i => i :: offsets fields ks
    | none => offsets fields ks

/-- `/repo/db/field/export/export.go:65-84` buildFilter; `none` is nil.  `offset` (lines 56-63) is the same
function as `field.Offset`. -/
def buildFilter (efields : List Str) (kc : Str) (fields : List Str) : Option Filter :=
  match splitByte 0x3D kc with
  | [k, v] => match Offset k efields with
    | none => none
    | some ko =>
      match v with
      | 0x21 :: rest => some ⟨ko, true, splitByte 0x2F rest, offsets efields fields⟩
      | _ => some ⟨ko, false, splitByte 0x2F v, offsets efields fields⟩
  | _ => none

/-- `/repo/db/field/export/export.go:86-92` match. -/
def Filter.match_ (f : Filter) (value : Str) : Bool :=
  let i := InArray value f.values
  if f.neg then !i else i

/-- Loop of `/repo/db/field/export/export.go:101-105`. -/
def copyOffsets (data : List Str) : List Nat → List Str → List Str
  | [], ret => ret
  | o :: os, ret => copyOffsets data os (match data[o]? with | some v => ret.set o v | none => ret)

/-- `/repo/db/field/export/export.go:94-110` extract. -/
def Filter.extract (f : Filter) (data : List Str) : List Str :=
  match data[f.keyOffset]? with
  | none => data
  | some v =>
    if f.match_ v then copyOffsets data f.fieldsOffsets (List.replicate data.length [])
    else data

/-- `/repo/db/field/export/export.go:112-126` Select; the pairs are (Ext, Intern).  The Go code searches the
map by ranging over it; keys are distinct so the result is that of a lookup. -/
def Select (fMap : GoMap Str) (fields : List Str) : List (Str × Str) :=
  fields.map fun f => match mapGet fMap f with
    | some v => (f, v)
    | none => ([], [])

/-- Loop of `/repo/db/field/export/export.go:130-134`; `ret[k]` with k out of range panics. -/
def remapLoop (data : GoMap Str) : List (Str × Str) → Nat → List Str → Res (List Str)
  | [], _, ret => .ok ret
  | p :: ps, k, ret => match mapGet data p.2 with
    | some f => if k < ret.length then remapLoop data ps (k + 1) (ret.set k f) else .panic
    | none => remapLoop data ps (k + 1) ret

/-- `/repo/db/field/export/export.go:128-136` remapKey. -/
def Exporter.remapKey (e : Exporter) (fieldMap : List (Str × Str)) (data : GoMap Str) : Res (List Str) :=
  remapLoop data fieldMap 0 (List.replicate e.fields.length [])

/-- `/repo/db/field/export/export.go:138-147` Export. -/
def Exporter.Export (e : Exporter) (fieldMap : List (Str × Str)) (data : GoMap Str) : Res (List Str) := do
  let ret ← e.remapKey fieldMap data
  return e.filters.foldl (fun r f => f.extract r) ret

/-- Body of the loop of `/repo/db/field/export/export.go:158-184` for a group that is not the first. -/
def parseGroup (efields : List Str) (group : Str) : Option Filter :=
  match splitByte 0x2C group with
  | [] => none
  | f0 :: rest => match splitByte 0x3A f0 with
    | [kc, v] =>
      let fields := v :: rest
      if fields.all (fun f => InArray f efields) then buildFilter efields kc fields else none
    | _ => none

/-- `/repo/db/field/export/export.go:149-186` ParseRule; `none` is the nil interface. -/
def ParseRule (rule : Str) : Option Exporter :=
  if rule = [] then none
  else match splitByte 0x7C rule with
    | [] => none
    | g :: gs =>
      let efields := splitByte 0x2C g
      some ⟨efields, gs.filterMap (parseGroup efields)⟩

/-- `/repo/db/field/export/export.go:21` DefaultRule. -/
def DefaultRule : Str := gs "country,province,city,isp,asn,continent,district|country=!中国:country,continent|province=台湾/中国台湾:country,province,continent,district"

/-- `/repo/db/field/export/export.go:22` LineRule. -/
def LineRule : Str := gs "line"

/-- `/repo/db/field/fields.go:78-88` ExtKeys; the inner `range` over a map is taken in list order (the order
is visible only when two keys map to the same internal name). -/
def ExtKeys (f : GoMap Str) (internFields : List Str) : List Str :=
  internFields.flatMap fun v => (f.filter (fun p => v == p.2)).map (·.1)

/-- `/repo/db/inf/intern.go:29` Find. -/
abbrev Find := IP → Res (IPNet × GoMap Str)

/-- `/repo/db/field/export/export.go:210-225`: the values of one row. -/
def rowValues (fieldMap : GoMap Str) (fields : List Str) (ept : Option Exporter) (info : GoMap Str) : Res (List Str) :=
  match ept with
  | some e => e.Export (Select fieldMap fields) info
  | none => .ok (fields.map fun v => match mapGet fieldMap v with
    | none => []
    | some infK => match mapGet info infK with
      | some f => f
      | none => [])

/-- The `for` loop of `/repo/db/field/export/export.go:203-240`.  The Go loop has no bound; here it runs for
at most `fuel` rounds and `none` means it is still running.  Reusing the previous value slice when the values
are equal (lines 227-229) does not change the values; the sharing is modelled in `Model/Operate.lean`. -/
def buildLoop (find : Find) (row : GoMap Str → Res (List Str)) : Nat → IP → List IpRaw → Option (Res (List IpRaw))
  | 0, _, _ => none
  | fuel + 1, marker, acc =>
    match find marker with
    | .err e => some (.err e)
    | .panic => some .panic
    | .ok (cidr, info) => match row info with
      | .err e => some (.err e)
      | .panic => some .panic
      | .ok values =>
        let acc := acc ++ [⟨cidr, values⟩]
        match LastIP cidr with
        | .ok last =>
          if IsAllMask last then some (.ok acc)
          else match NextStart cidr with
            | .ok marker => buildLoop find row fuel marker acc
            | .err e => some (.err e)
            | .panic => some .panic
        | .err e => some (.err e)
        | .panic => some .panic

/-- `/repo/db/field/export/export.go:190-195`: the exported field names. -/
def dumpFields (fieldMap : GoMap Str) (fields : List Str) (ept : Option Exporter) : List Str :=
  match ept with
  | none => ExtKeys fieldMap fields
  | some e => e.fields

/-- `/repo/db/field/export/export.go:196-201`: the first marker. -/
def firstMarker (version : VersionInfo) : IP := if version.IsIpV6 then IPv6zero else IPv4zero

/-- `/repo/db/field/export/export.go:188-243` BuildIPData, run for at most `fuel` rounds.  The Version field
is left nil by the code and set by the callers; it is passed through here. -/
def BuildIPData (fuel : Nat) (fieldMap : GoMap Str) (fields : List Str) (ept : Option Exporter)
    (version : VersionInfo) (find : Find) : Option (Res IpData) :=
  let fs := dumpFields fieldMap fields ept
  (buildLoop find (rowValues fieldMap fs ept) fuel (firstMarker version) []).map fun r =>
    r >>= fun ips => .ok ⟨fs, version, ips⟩

end Uip.Export
