import Verif.Spec.Range
/-!
# Specification vocabulary: rows with any address and mask

A row of a data set is a Go `net.IPNet`; nothing makes a caller clear the host bits or give a mask whose ones come first.
-/
namespace Uip.Spec
open Uip

/-- The prefix length a mask states: the number of its ones if they come first, 0 for any other mask. -/
def statedPrefix (mask : Bytes) : Nat :=
  if IsMask mask ((bits mask).count true) then (bits mask).count true else 0

/-- The prefix length in the 128-bit space: for an IPv4 address (of 4 or 16 bytes) a length of at most 32 counts from bit 96. -/
def widePrefix (n : IPNet) : Nat :=
  if addrNum n.ip / 2 ^ 32 = 0xffff ∧ statedPrefix n.mask ≤ 32 then statedPrefix n.mask + 96 else statedPrefix n.mask

/-- `m` is the network of that prefix length around the address. -/
def Means (n m : IPNet) : Prop := WFNet m ∧ hostBits m + widePrefix n = 128 ∧ Covers m (addrNum n.ip)

/-- An address of 4 or 16 bytes and a mask of at most 16 bytes. -/
def AnyNet (n : IPNet) : Prop := ValidIP n.ip ∧ n.mask.length ≤ 16

instance (n) : Decidable (AnyNet n) := by unfold AnyNet; infer_instance
instance (n m) : Decidable (Means n m) := by unfold Means; infer_instance

end Uip.Spec
