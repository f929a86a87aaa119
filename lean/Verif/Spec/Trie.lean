import Verif.Base.Bits
/-!
# Specification vocabulary: walking a binary trie stored as 8-byte nodes
-/
namespace Uip.Spec
open Uip

/-- The child of `node` on side `bit`: a 4-byte big-endian number at `8*node + 4*bit`. -/
def child (data : Bytes) (node : Nat) (bit : Bool) : Option Nat :=
  let off := 8 * node + 4 * bit.toNat
  if off + 4 ≤ data.length then some (val ((data.drop off).take 4)) else none

/-- Follow `path` from `node`, stopping at the first number that is not an inner node (inner nodes are
those below `nc`).  The result is the number reached and how many bits were used. -/
def trieWalk (data : Bytes) (nc : Int) : List Bool → Nat → Nat → Option (Nat × Nat)
  | [], node, d => some (node, d)
  | b :: bs, node, d =>
    if (node : Int) ≥ nc then some (node, d)
    else match child data node b with
      | none => none
      | some n => trieWalk data nc bs n (d + 1)

end Uip.Spec
