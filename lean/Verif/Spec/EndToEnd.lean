import Verif.Model.Names
import Verif.Spec.Operate
import Verif.Spec.Info
/-!
# Specification vocabulary: from the answers of one database to the answers of another
-/
namespace Uip.Spec
open Uip

/-- What the default rule keeps of an answer (README: outside China only country and continent, no city, carrier and AS
number in Taiwan, never the line). -/
def ruled (i : IpInfo) : IpInfo :=
  if i.country ≠ gs "中国" then { country := i.country, continent := i.continent }
  else if i.province = gs "台湾" ∨ i.province = gs "中国台湾" then
    { country := i.country, province := i.province, continent := i.continent, district := i.district }
  else { i with line := [] }

/-- The answer with its names normalised by the tables the program carries (C35). -/
def named (i : IpInfo) : IpInfo :=
  { country := normValue NormalizedMap (some (gs "country")) i.country
    province := normValue NormalizedMap (some (gs "province")) i.province
    city := normValue NormalizedMap (some (gs "city")) i.city
    isp := normValue NormalizedMap (some (gs "isp")) i.isp
    asn := normValue NormalizedMap (some (gs "asn")) i.asn
    continent := normValue NormalizedMap (some (gs "continent")) i.continent
    district := normValue NormalizedMap (some (gs "district")) i.district
    line := [] }

/-- The answer as the converter reads it. -/
def cleaned (i : IpInfo) : IpInfo := named (ruled i)

/-- Among the cleaned answers `A` there is one with the main carrier `m` and the AS number `s`. -/
def Carries (A : IpInfo → Prop) (s m : Str) : Prop := m ∈ mainCarriers ∧ ∃ i, A i ∧ (cleaned i).isp = m ∧ (cleaned i).asn = s

/-- `o` is the answer of the converted database where the source database (whose answers are `A`) says `i`: cleaned, with
the district of the province, the continent spelled out, and a minor carrier replaced by a main carrier seen with the same
AS number, if there is one. -/
def Finished (A : IpInfo → Prop) (i o : IpInfo) : Prop :=
  o.country = (cleaned i).country ∧ o.province = (cleaned i).province ∧ o.city = (cleaned i).city ∧
  o.asn = (cleaned i).asn ∧ o.continent = spellContinent (cleaned i).continent ∧
  o.district = districtOf (cleaned i).province ∧ o.line = [] ∧
  ((cleaned i).isp ∉ mainCarriers ∧ Carries A (cleaned i).asn o.isp ∨
   o.isp = (cleaned i).isp ∧ ((cleaned i).isp ∈ mainCarriers ∨ ∀ m, ¬ Carries A (cleaned i).asn m))

/-- Every attribute is at most 255 bytes long and has no tab. -/
def Plainly (i : IpInfo) : Prop :=
  ∀ v ∈ [i.country, i.province, i.city, i.isp, i.asn, i.continent, i.district], v.length ≤ 255 ∧ (0x09 : UInt8) ∉ v

instance (i) : Decidable (Plainly i) := by unfold Plainly; infer_instance

end Uip.Spec
