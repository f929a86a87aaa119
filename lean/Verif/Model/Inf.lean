import Verif.Model.IpNet
import Verif.Model.GoStr
/-!
# Packages `db/inf` and `db/field` (`/repo/db/inf/*.go`, `/repo/db/field/{fields,strings}.go`)
-/
namespace Uip

/-- `/repo/db/inf/db_inf.go:8-20` IpInfo. -/
structure IpInfo where
  country : Str := []
  district : Str := []
  province : Str := []
  city : Str := []
  asn : Str := []
  isp : Str := []
  continent : Str := []
  line : Str := []
  deriving DecidableEq, Repr

/-- `/repo/db/inf/db_inf.go:39-45` IpType constants. -/
def IpV4 : Int := 1
def IpV6 : Int := 2
def IpAll : Int := 3

/-- `/repo/db/inf/db_inf.go:30-37` VersionInfo. -/
structure VersionInfo where
  ipType : Int
  count : UInt32
  build : Int
  version : Str
  languages : List Str
  extraInfo : List Str
  deriving DecidableEq, Repr

/-- `/repo/db/inf/db_inf.go:47-53` HasIpV4 / HasIpV6: bits 0 and 1 of the type (two's complement). -/
def VersionInfo.HasIpV4 (v : VersionInfo) : Bool := v.ipType % 2 != 0
def VersionInfo.HasIpV6 (v : VersionInfo) : Bool := v.ipType / 2 % 2 != 0

/-- `/repo/db/inf/db_inf.go:55-57` IsIpAll. -/
def VersionInfo.IsIpAll (v : VersionInfo) : Bool := v.ipType == IpAll

/-- `/repo/db/inf/db_inf.go:59-65` IsIpV4 / IsIpV6. -/
def VersionInfo.IsIpV4 (v : VersionInfo) : Bool := v.ipType == IpV4
def VersionInfo.IsIpV6 (v : VersionInfo) : Bool := v.ipType == IpV6

/-- `/repo/db/inf/intern.go:15-18` IpRaw (as a value; aliasing of `FieldValues` is modelled in
`Model/Operate.lean`). -/
structure IpRaw where
  cidr : IPNet
  values : List Str
  deriving DecidableEq, Repr

/-- `/repo/db/inf/intern.go:9-13` IpData. -/
structure IpData where
  fields : List Str
  version : VersionInfo
  ips : List IpRaw
  deriving DecidableEq, Repr

/-! `/repo/db/field/fields.go:19-55` field names. -/
def fCountry : Str := gs "country"
def fProvince : Str := gs "province"
def fCity : Str := gs "city"
def fISP : Str := gs "isp"
def fContinent : Str := gs "continent"
def fUTCOffset : Str := gs "utcOffset"
def fLatitude : Str := gs "latitude"
def fLongitude : Str := gs "longitude"
def fChinaAdminCode : Str := gs "chinaAdminCode"
def fAsn : Str := gs "asn"
def fLine : Str := gs "line"
def fDistrict : Str := gs "district"

/-- `/repo/db/field/strings.go:3-10` InArray. -/
def InArray (s : Str) : List Str → Bool
  | [] => false
  | v :: arr => if v = s then true else InArray s arr

/-- `/repo/db/field/strings.go:12-19` Offset; `none` is -1. -/
def Offset (s : Str) : List Str → Option Nat
  | [] => none
  | v :: arr => if v = s then some 0 else (Offset s arr).map (· + 1)

end Uip
