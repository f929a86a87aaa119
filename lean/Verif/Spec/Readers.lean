import Verif.Spec.Info
import Verif.Model.Ipdb.Java
/-!
# What the Java and the Rust reader answer for a record
-/
namespace Uip.Spec
open Uip

/-- The value of the last field whose name is one of `names`, if there is one. -/
def attr? (names fields values : List Str) : Option Str :=
  ((fields.zip values).filter (fun p => decide (p.1 ∈ names))).getLast?.map (·.2)

theorem attr_eq_attr? (names fields values : List Str) : attr names fields values = (attr? names fields values).getD [] := rfl

/-- The Java answer for a record: as `infoOf`, null for an attribute without a column; the line is taken from
the last column named "asn" or "line". -/
def javaInfo (fields values : List Str) : Java.JInfo :=
  { country := attr? countryNames fields values
    district := attr? districtNames fields values
    province := attr? provinceNames fields values
    city := attr? cityNames fields values
    asn := attr? asnNames fields values
    isp := attr? ispNames fields values
    continent := (attr? continentNames fields values).map spellContinent
    line := attr? (asnNames ++ lineNames) fields values }

/-- The texts of a Java answer, null read as empty. -/
def javaTexts (i : Java.JInfo) : IpInfo :=
  { country := i.country.getD [], district := i.district.getD [], province := i.province.getD [],
    city := i.city.getD [], asn := i.asn.getD [], isp := i.isp.getD [], continent := i.continent.getD [],
    line := i.line.getD [] }

/-- The continent as the Rust reader spells it: only the codes are known. -/
def spellCode (v : Str) : Str :=
  match continentTable.find? (fun p => decide (p.1 = v)) with
  | some p => p.2
  | none => []

/-- The Rust answer for a record with at most one continent column. -/
def rustInfo (fields values : List Str) : IpInfo :=
  { infoOf fields values with continent := spellCode (attr continentNames fields values) }

/-- The families the Java and Rust readers accept: decided by the length of the address alone. -/
def TakesLen (v : VersionInfo) (a : IP) : Prop := (a.length = 4 ∧ v.ipType ≠ IpV6) ∨ (a.length = 16 ∧ v.ipType ≠ IpV4)

instance (v a) : Decidable (TakesLen v a) := by unfold TakesLen; infer_instance

/-- Every value is a text. -/
def TextValues (ipd : IpData) : Prop := ∀ r ∈ ipd.ips, ∀ v ∈ r.values, ∃ s : String, v = gs s

end Uip.Spec
