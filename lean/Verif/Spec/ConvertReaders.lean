import Verif.Spec.Readers
import Verif.Spec.Json
/-!
# Dumps that fit into an ipdb file
-/
namespace Uip.Spec
open Uip

/-- The dump has a known field, no row for all addresses, values that fit into records, and only texts. -/
structure Packable (d : IpData) : Prop where
  fields : d.fields ≠ []
  notAll : ∀ x ∈ d.ips, hostBits x.cidr < 128
  small : ∀ x ∈ d.ips, (joinByte 0x09 x.values).length < 65536
  values : TextValues d
  version : Json.IsText d.version.version
  extra : ∀ s ∈ d.version.extraInfo, Json.IsText s

end Uip.Spec
