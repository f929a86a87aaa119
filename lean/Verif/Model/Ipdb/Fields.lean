import Verif.Model.Inf
/-!
# `/repo/db/format/ipdb/fields.go`
-/
namespace Uip.Ipdb
open Uip

/-! `/repo/db/format/ipdb/fields.go:40-60` field names that the code refers to. -/
def FieldCountryName : Str := gs "country_name"
def FieldRegionName : Str := gs "region_name"
def FieldCityName : Str := gs "city_name"
def FieldISPDomain : Str := gs "isp_domain"
def FieldContinentCode : Str := gs "continent_code"
def FieldUTCOffset : Str := gs "utc_offset"
def FieldLatitude : Str := gs "latitude"
def FieldLongitude : Str := gs "longitude"
def FieldChinaAdminCode : Str := gs "china_admin_code"

/-- `/repo/db/format/ipdb/fields.go:87-100` CommonFieldsMap. -/
def CommonFieldsMap : GoMap Str :=
  [(fCountry, FieldCountryName), (fProvince, FieldRegionName), (fCity, FieldCityName),
   (fISP, FieldISPDomain), (fAsn, fAsn), (fContinent, FieldContinentCode), (fUTCOffset, FieldUTCOffset),
   (fLatitude, FieldLatitude), (fLongitude, FieldLongitude), (fChinaAdminCode, FieldChinaAdminCode),
   (fDistrict, fDistrict), (fLine, fLine)]

/-- `/repo/db/format/ipdb/fields.go:105-114` MetaData. `ipVersion` is a `uint16`. -/
structure MetaData where
  build : Int
  ipVersion : Nat
  languages : GoMap Int
  nodeCount : Int
  totalSize : Int
  fields : List Str
  version : Str
  extra : List Str
  deriving DecidableEq, Repr

/-- `/repo/db/format/ipdb/fields.go:116-126` covertFields. -/
def covertFields (fields : List Str) : List Str :=
  fields.map fun f => match mapGet CommonFieldsMap f with
    | some newF => newF
    | none => f

/-- `/repo/db/format/ipdb/fields.go:128-136` IpType. -/
def MetaData.IpType (m : MetaData) : Int :=
  if m.ipVersion = 1 then IpV4 else if m.ipVersion = 2 then IpV6 else IpAll

/-- `/repo/db/format/ipdb/fields.go:138-146` ipVersion. -/
def ipVersion (v : VersionInfo) : Nat :=
  if v.ipType = IpV4 then 1 else if v.ipType = IpV6 then 2 else 3

/-- `/repo/db/format/ipdb/fields.go:148-156` buildMeta, with the field list filled in as in
`/repo/db/format/ipdb/packer.go:9-10` and the languages as in `/repo/db/format/ipdb/writer.go:45-46`;
`now` is `time.Now().Unix()`. -/
def buildMeta (now : Int) (v : VersionInfo) (fields : List Str) : MetaData :=
  { build := now, ipVersion := ipVersion v, languages := [(gs "CN", 0)], nodeCount := 0, totalSize := 0,
    fields := covertFields fields, version := v.version, extra := v.extraInfo }

end Uip.Ipdb
