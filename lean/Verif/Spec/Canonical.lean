import Verif.Spec.EndToEnd
import Verif.Spec.Pipeline
/-!
# Specification vocabulary: conversions that do not depend on chance
-/
namespace Uip.Spec
open Uip

/-- No AS number of a row with a minor carrier occurs with two main carriers among the rows of the table (names
normalised). -/
def OneCarrierTable (d : IpData) : Prop :=
  ∀ x ∈ d.ips.map (normRow NormalizedMap d.fields), ∀ u s, fieldVal d.fields fISP x = some u → u ∉ mainCarriers →
    fieldVal d.fields fAsn x = some s → ∀ m m', CarrierOf d.fields (d.ips.map (normRow NormalizedMap d.fields)) s m →
      CarrierOf d.fields (d.ips.map (normRow NormalizedMap d.fields)) s m' → m = m'

/-- No AS number of an answer with a minor carrier occurs with two main carriers among the cleaned answers `A`. -/
def OneCarrier (A : IpInfo → Prop) : Prop :=
  ∀ i, A i → (cleaned i).isp ∉ mainCarriers → ∀ m m', Carries A (cleaned i).asn m → Carries A (cleaned i).asn m' → m = m'

/-- The parts of a version that are written into an `.ipdb` file. -/
def SameRelease (v v' : VersionInfo) : Prop := v'.ipType = v.ipType ∧ v'.version = v.version ∧ v'.extraInfo = v.extraInfo

end Uip.Spec
