import Verif.Spec.Operate
import Verif.Spec.Info
/-!
# Specification vocabulary: what the converter does to a record
-/
namespace Uip.Spec
open Uip

/-- Some row of the table has the main carrier `m` and the AS number `s`. -/
def CarrierOf (fields : List Str) (rows : List IpRaw) (s m : Str) : Prop :=
  m ∈ mainCarriers ∧ ∃ y ∈ rows, fieldVal fields fISP y = some m ∧ fieldVal fields fAsn y = some s

/-- `x'` is `x` with a minor carrier replaced by a main one seen with the same AS number somewhere in the table, if there
is one; else `x`. -/
def MovedIsp (fields : List Str) (rows : List IpRaw) (x x' : IpRaw) : Prop :=
  (∃ u s m, fieldVal fields fISP x = some u ∧ u ∉ mainCarriers ∧ fieldVal fields fAsn x = some s ∧
    CarrierOf fields rows s m ∧ x' = setField fields fISP m x) ∨
  (x' = x ∧ ¬ ∃ u s m, fieldVal fields fISP x = some u ∧ u ∉ mainCarriers ∧ fieldVal fields fAsn x = some s ∧
    CarrierOf fields rows s m)

/-- The orders in which a Go run may go through the main carriers met in the table with normalised names: `orders k` is
the order used for row `k` (Go does not fix the iteration order of a map). -/
def CarrierOrders (tables : GoMap (GoMap Str)) (d : IpData) (orders : Nat → List Str) : Prop :=
  ∀ k, (orders k).Nodup ∧
    ∀ m, m ∈ orders k ↔ m ∈ mainCarriers ∧ ∃ y ∈ d.ips.map (normRow tables d.fields), fieldVal d.fields fISP y = some m

/-- Values and field lists of ordinary size, without the record separator. -/
structure Modest (d : IpData) : Prop where
  fields : d.fields.length ≤ 200
  short : ∀ r ∈ d.ips, ∀ v ∈ r.values, v.length ≤ 255
  noTab : ∀ r ∈ d.ips, ∀ v ∈ r.values, (0x09 : UInt8) ∉ v

instance (d : IpData) : Decidable (Modest d) :=
  decidable_of_iff (d.fields.length ≤ 200 ∧ (∀ r ∈ d.ips, ∀ v ∈ r.values, v.length ≤ 255) ∧
      (∀ r ∈ d.ips, ∀ v ∈ r.values, (0x09 : UInt8) ∉ v))
    ⟨fun h => ⟨h.1, h.2.1, h.2.2⟩, fun h => ⟨h.1, h.2, h.3⟩⟩

/-- The table is not one record for the whole of `::/0`: some address has no record, or two differ in the country. -/
def NotUniform (d : IpData) : Prop :=
  (∃ y < 2 ^ 128, ∀ r ∈ d.ips, ¬ Covers r.cidr y) ∨
  (∃ r ∈ d.ips, ∃ s ∈ d.ips, fieldVal d.fields fCountry r ≠ fieldVal d.fields fCountry s)

/-- A table a dump may produce and the converter can process: distinct fields with those the operations work on, isp and
asn not in the first column, disjoint canonical networks, one value per field. -/
structure Table (d : IpData) : Prop where
  nodup : d.fields.Nodup
  province : fProvince ∈ d.fields
  usable : ∃ i a, Offset fISP d.fields = some i ∧ Offset fAsn d.fields = some a ∧ 0 < i ∧ 0 < a
  continent : OneContinent d.fields
  rows : d.ips ≠ []
  wf : ∀ r ∈ d.ips, WFNet r.cidr
  disjoint : DisjointRows (rowsOf d)
  len : ∀ r ∈ d.ips, r.values.length = d.fields.length
  modest : Modest d
  notUniform : NotUniform d

end Uip.Spec
