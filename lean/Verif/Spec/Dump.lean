import Verif.Spec.Range
import Verif.Model.Inf
/-!
# Specification vocabulary: databases as lookups
-/
namespace Uip.Spec
open Uip

/-- The numbers of an address family, by byte length of its addresses: IPv4 is `::ffff:0:0/96`. -/
def famLo (len : Nat) : Nat := if len = 4 then 0xffff * 2 ^ 32 else 0
def famEnd (len : Nat) : Nat := if len = 4 then 0x10000 * 2 ^ 32 else 2 ^ 128

/-- An address of the family (in either form). -/
def InFam (len : Nat) (a : IP) : Prop := ValidIP a ∧ famLo len ≤ addrNum a ∧ addrNum a < famEnd len

instance (len a) : Decidable (InFam len a) := by unfold InFam; infer_instance

/-- The lookup returns a network of the asked family that contains the asked address. -/
def ReturnsOwnNet (len : Nat) (find : IP → Res (IPNet × GoMap Str)) : Prop :=
  ∀ a c i, InFam len a → find a = .ok (c, i) → WFNet c ∧ c.ip.length = len ∧ Covers c (addrNum a)

/-- Two addresses of one returned network that both have an answer have the same answer. -/
def Coherent (len : Nat) (find : IP → Res (IPNet × GoMap Str)) : Prop :=
  ∀ a b c i c' j, InFam len a → InFam len b → find a = .ok (c, i) → find b = .ok (c', j) → Covers c (addrNum b) →
    c' = c ∧ j = i

/-- Byte length of the addresses a dump walks: IPv6 databases are dumped as IPv6, all others as IPv4. -/
def dumpLen (v : VersionInfo) : Nat := if v.IsIpV6 then 16 else 4

end Uip.Spec
