import Verif.Model.Inf
import Verif.Spec.Table
/-!
# Specification vocabulary: the attributes of a record

A record is a list of values, one per field name.  An attribute of `IpInfo` is the value of the last
field carrying one of the attribute's names.
-/
namespace Uip.Spec
open Uip

/-- The value of the last field whose name is one of `names`; empty if there is none. -/
def attr (names fields values : List Str) : Str :=
  (((fields.zip values).filter (fun p => decide (p.1 ∈ names))).getLast?.map (·.2)).getD []

def countryNames : List Str := [gs "country", gs "country_name"]
def provinceNames : List Str := [gs "province", gs "region_name"]
def cityNames : List Str := [gs "city", gs "city_name"]
def ispNames : List Str := [gs "isp", gs "isp_domain"]
def asnNames : List Str := [gs "asn"]
def continentNames : List Str := [gs "continent", gs "continent_code"]
def lineNames : List Str := [gs "line"]
def districtNames : List Str := [gs "district"]

/-- Two-letter continent codes and their names. -/
def continentTable : List (Str × Str) :=
  [(gs "AS", gs "亚洲"), (gs "EU", gs "欧洲"), (gs "NA", gs "北美洲"), (gs "SA", gs "南美洲"),
   (gs "AF", gs "非洲"), (gs "OC", gs "大洋洲"), (gs "AN", gs "南极洲")]

/-- Spell out a continent code; anything else is left alone. -/
def spellContinent (v : Str) : Str :=
  match continentTable.find? (fun p => decide (p.1 = v)) with
  | some p => p.2
  | none => v

/-- The information a record stands for. -/
def infoOf (fields values : List Str) : IpInfo :=
  { country := attr countryNames fields values
    district := attr districtNames fields values
    province := attr provinceNames fields values
    city := attr cityNames fields values
    asn := attr asnNames fields values
    isp := attr ispNames fields values
    continent := spellContinent (attr continentNames fields values)
    line := attr lineNames fields values }

/-- At most one field names the continent. -/
def OneContinent (fields : List Str) : Prop := (fields.filter (fun f => decide (f ∈ continentNames))).length ≤ 1

instance (f) : Decidable (OneContinent f) := by unfold OneContinent; infer_instance

/-- The rows of a data set as network/values pairs. -/
def rowsOf (ipd : IpData) : List (IPNet × List Str) := ipd.ips.map fun x => (x.cidr, x.values)

/-- What is asked of the data set, apart from the size of its records. -/
structure RowsWF (ipd : IpData) : Prop where
  fields : ipd.fields ≠ []
  wf : ∀ r ∈ ipd.ips, WFNet r.cidr
  notAll : ∀ r ∈ ipd.ips, hostBits r.cidr < 128
  len : ∀ r ∈ ipd.ips, r.values.length = ipd.fields.length

/-- What is asked of the data set: as before, and the values of a row fit into a record of the file. -/
structure RowsOK (ipd : IpData) : Prop where
  fields : ipd.fields ≠ []
  wf : ∀ r ∈ ipd.ips, WFNet r.cidr
  notAll : ∀ r ∈ ipd.ips, hostBits r.cidr < 128
  len : ∀ r ∈ ipd.ips, r.values.length = ipd.fields.length
  small : ∀ r ∈ ipd.ips, (joinByte 0x09 r.values).length < 65536

theorem RowsOK.toWF {ipd : IpData} (h : RowsOK ipd) : RowsWF ipd := ⟨h.fields, h.wf, h.notAll, h.len⟩

instance (ipd : IpData) : Decidable (RowsOK ipd) :=
  decidable_of_iff (ipd.fields ≠ [] ∧ (∀ r ∈ ipd.ips, WFNet r.cidr) ∧ (∀ r ∈ ipd.ips, hostBits r.cidr < 128) ∧
      (∀ r ∈ ipd.ips, r.values.length = ipd.fields.length) ∧ (∀ r ∈ ipd.ips, (joinByte 0x09 r.values).length < 65536))
    ⟨fun h => ⟨h.1, h.2.1, h.2.2.1, h.2.2.2.1, h.2.2.2.2⟩, fun h => ⟨h.1, h.2, h.3, h.4, h.5⟩⟩

/-- No value contains the record separator (a tab), and at most one field names the continent. -/
structure ValuesOK (ipd : IpData) : Prop where
  noTab : ∀ r ∈ ipd.ips, ∀ v ∈ r.values, (0x09 : UInt8) ∉ v
  continent : OneContinent ipd.fields

instance (ipd : IpData) : Decidable (ValuesOK ipd) :=
  decidable_of_iff ((∀ r ∈ ipd.ips, ∀ v ∈ r.values, (0x09 : UInt8) ∉ v) ∧ OneContinent ipd.fields)
    ⟨fun h => ⟨h.1, h.2⟩, fun h => ⟨h.1, h.2⟩⟩

/-- The data set is declared to hold addresses of this kind (IPv4 addresses include `::ffff:a.b.c.d`). -/
def Supports (v : VersionInfo) (a : IP) : Prop := if (To4 a).isSome then v.ipType ≠ IpV6 else v.ipType ≠ IpV4

instance (v a) : Decidable (Supports v a) := by unfold Supports; infer_instance

/-- Prefix length of a network, counted in the family of the address asked for. -/
def maskFor (n : IPNet) (a : IP) : Nat := if (To4 a).isSome then 32 - hostBits n else 128 - hostBits n

end Uip.Spec
