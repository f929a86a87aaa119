import Verif.Model.GoText
import Verif.Model.IpNet
/-!
# The function of package `ipnet` that takes a text
-/
namespace Uip

/-- `/repo/ipnet/ip.go:20-25` IPv4StrToUint32 (`net.ParseIP` of a bad text is nil, whose `To4` is nil). -/
def IPv4StrToUint32 (ipStr : Str) : Res UInt32 :=
  match (ParseIP ipStr).bind To4 with
  | some ip => IPv4ToUint32 ip
  | none => .ok 0

end Uip
