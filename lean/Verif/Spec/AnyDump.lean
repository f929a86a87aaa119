import Verif.Spec.AnyFile
/-!
# What dumps of ipdb files of any origin hold
-/
namespace Uip.Spec
open Uip Uip.Ipdb

/-- The value of the column `name`: that of the last column of this name; continent codes are spelled out. -/
def columnValue (m : MetaData) (cols : List Str) (name : Str) : Option Str :=
  if name ∈ m.fields then
    some (if name = gs "continent_code" then spellContinent (attr [name] m.fields cols) else attr [name] m.fields cols)
  else none

/-- The name of the column that a dumped field comes from. -/
def columnOf : List (Str × Str) :=
  [(gs "country", gs "country_name"), (gs "province", gs "region_name"), (gs "city", gs "city_name"), (gs "isp", gs "isp_domain"),
   (gs "asn", gs "asn"), (gs "continent", gs "continent_code"), (gs "utcOffset", gs "utc_offset"), (gs "latitude", gs "latitude"),
   (gs "longitude", gs "longitude"), (gs "chinaAdminCode", gs "china_admin_code"), (gs "district", gs "district"), (gs "line", gs "line")]

/-- The value of a dumped field. -/
def dumpedValue (m : MetaData) (cols : List Str) (f : Str) : Str :=
  match columnOf.find? (fun p => decide (p.1 = f)) with
  | some p => (columnValue m cols p.2).getD []
  | none => []

/-- The attribute of an answer that has the name of a dumped field. -/
def attributeOf (q : IpInfo) (f : Str) : Option Str :=
  if f = gs "country" then some q.country else if f = gs "province" then some q.province else if f = gs "city" then some q.city
  else if f = gs "isp" then some q.isp else if f = gs "asn" then some q.asn else if f = gs "continent" then some q.continent
  else if f = gs "district" then some q.district else if f = gs "line" then some q.line else none

/-- The network of an address whose path ends after `depth` bits (of its 16-byte form). -/
def NetworkAt (a : IP) (depth : Nat) (n : IPNet) : Prop :=
  WFNet n ∧ Covers n (addrNum a) ∧
    if addrNum a / 2 ^ 32 = 0xffff then n.ip.length = 4 ∧ pfx n = depth - 96 else n.ip.length = 16 ∧ pfx n = depth

end Uip.Spec
