import Verif.Model.GoNet
/-!
# Specification vocabulary: addresses, networks and ranges as numbers

Written independently of the repository's functions: an address is a number, a CIDR network is the set
of addresses that share their first `k` bits, a range is an interval of numbers.
-/
namespace Uip.Spec
open Uip

/-- An address in 4-byte or 16-byte form. -/
def ValidIP (ip : IP) : Prop := ip.length = 4 ∨ ip.length = 16

instance (ip : IP) : Decidable (ValidIP ip) := by unfold ValidIP; infer_instance

/-- The position of an address in the 128-bit space; IPv4 `a.b.c.d` sits at `::ffff:a.b.c.d`. -/
def addrNum (ip : IP) : Nat := if ip.length = 4 then 0xffff * 2 ^ 32 + val ip else val ip

/-- A canonical mask: `k` ones followed by zeros. -/
def IsMask (mask : Bytes) (k : Nat) : Prop :=
  k ≤ 8 * mask.length ∧ bits mask = List.replicate k true ++ List.replicate (8 * mask.length - k) false

/-- A CIDR block `ip/k`: address of 4 or 16 bytes, canonical mask of the same length. -/
def IsCIDR (n : IPNet) (k : Nat) : Prop :=
  ValidIP n.ip ∧ n.mask.length = n.ip.length ∧ IsMask n.mask k

/-- The host bits of the block are zero. -/
def Aligned (n : IPNet) (k : Nat) : Prop :=
  (bits n.ip).drop k = List.replicate (8 * n.ip.length - k) false

/-- Membership in a CIDR block: same length, same first `k` bits. -/
def InNet (n : IPNet) (k : Nat) (a : IP) : Prop :=
  a.length = n.ip.length ∧ (bits a).take k = (bits n.ip).take k

instance (m k) : Decidable (IsMask m k) := by unfold IsMask; infer_instance
instance (m k) : Decidable (IsCIDR m k) := by unfold IsCIDR; infer_instance
instance (m k) : Decidable (Aligned m k) := by unfold Aligned; infer_instance
instance (m k a) : Decidable (InNet m k a) := by unfold InNet; infer_instance

end Uip.Spec
