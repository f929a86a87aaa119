import Verif.Spec.Range
import Verif.Model.GoStr
/-!
# Specification vocabulary: tables of CIDR rows
-/
namespace Uip.Spec
open Uip

/-- The two networks have an address in common. -/
def Overlap (a b : IPNet) : Prop := netLo a < netEnd b ∧ netLo b < netEnd a

/-- The two networks are the same set of addresses. -/
def SameNet (a b : IPNet) : Prop := netLo a = netLo b ∧ netEnd a = netEnd b

instance (a b) : Decidable (Overlap a b) := by unfold Overlap; infer_instance
instance (a b) : Decidable (SameNet a b) := by unfold SameNet; infer_instance

/-- Taking one more row into a table of rows, in the order they arrive: a row that partially overlaps
(contains or is contained in) a row already there is dropped, a row for a network already there replaces it. -/
def keepRow {α : Type} (acc : List (IPNet × α)) (r : IPNet × α) : List (IPNet × α) :=
  if acc.any (fun m => decide (Overlap m.1 r.1 ∧ ¬ SameNet m.1 r.1)) then acc
  else acc.filter (fun m => decide (¬ SameNet m.1 r.1)) ++ [r]

/-- The rows of a table that survive insertion in order. -/
def keptRows {α : Type} (rows : List (IPNet × α)) : List (IPNet × α) := rows.foldl keepRow []

/-- Rows are pairwise disjoint. -/
def DisjointRows {α : Type} (rows : List (IPNet × α)) : Prop := rows.Pairwise (fun a b => ¬ Overlap a.1 b.1)

instance {α : Type} (rows : List (IPNet × α)) : Decidable (DisjointRows rows) := by
  unfold DisjointRows; infer_instance

/-- The row of the table that covers the number `x`. -/
def rowOf {α : Type} (rows : List (IPNet × α)) (x : Nat) : Option (IPNet × α) :=
  rows.find? (fun m => decide (Covers m.1 x))

/-- The rows that are not dropped, in order (a replaced row was not dropped). -/
def acceptedRows {α : Type} (T : List (IPNet × α)) : List (IPNet × α) → List (IPNet × α)
  | [] => []
  | r :: rs => if T.any (fun m => decide (Overlap m.1 r.1 ∧ ¬ SameNet m.1 r.1)) then acceptedRows T rs
               else r :: acceptedRows (keepRow T r) rs

/-- Append `k` unless it is there already. -/
def addNew (acc : List Str) (k : Str) : List Str := if k ∈ acc then acc else acc ++ [k]

end Uip.Spec
