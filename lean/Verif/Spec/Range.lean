import Verif.Spec.Addr
/-!
# Specification vocabulary: CIDR blocks as intervals of numbers, tilings
-/
namespace Uip.Spec
open Uip

/-- Prefix length: number of one bits of the mask. -/
def pfx (n : IPNet) : Nat := (bits n.mask).count true

/-- Number of host bits. -/
def hostBits (n : IPNet) : Nat := 8 * n.ip.length - pfx n

/-- A well-formed network: canonical mask, host bits zero. -/
def WFNet (n : IPNet) : Prop := IsCIDR n (pfx n) ∧ Aligned n (pfx n)

/-- First number of a well-formed network. -/
def netLo (n : IPNet) : Nat := addrNum n.ip

/-- First number after a well-formed network. -/
def netEnd (n : IPNet) : Nat := addrNum n.ip + 2 ^ hostBits n

/-- The number `x` belongs to the network. -/
def Covers (n : IPNet) (x : Nat) : Prop := netLo n ≤ x ∧ x < netEnd n

/-- `ns` cover `[lo, hi)` one right after the other. -/
def Tiles : Nat → List IPNet → Nat → Prop
  | lo, [], hi => lo = hi
  | lo, n :: ns, hi => netLo n = lo ∧ Tiles (netEnd n) ns hi

/-- `x` lies between the two addresses (inclusive). -/
def Between (start end_ : IP) (x : Nat) : Prop := addrNum start ≤ x ∧ x ≤ addrNum end_

/-- Not the all-ones address of its length. -/
def NotTop (ip : IP) : Prop := val ip + 1 < 256 ^ ip.length

/-- The number after an address, wrapping to the first address of the same length at the top. -/
def wrapSucc (ip : IP) : Nat :=
  if val ip + 1 < 256 ^ ip.length then addrNum ip + 1 else if ip.length = 4 then 0xffff * 2 ^ 32 else 0

instance (n) : Decidable (WFNet n) := by unfold WFNet; infer_instance
instance (n x) : Decidable (Covers n x) := by unfold Covers; infer_instance
instance (n) : Decidable (NotTop n) := by unfold NotTop; infer_instance
instance (a b x) : Decidable (Between a b x) := by unfold Between; infer_instance
instance decTiles : (lo : Nat) → (l : List IPNet) → (hi : Nat) → Decidable (Tiles lo l hi)
  | lo, [], hi => inferInstanceAs (Decidable (lo = hi))
  | lo, n :: ns, hi =>
    have := decTiles (netEnd n) ns hi
    inferInstanceAs (Decidable (netLo n = lo ∧ Tiles (netEnd n) ns hi))

end Uip.Spec
