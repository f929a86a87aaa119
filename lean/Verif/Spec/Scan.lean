import Verif.Spec.Info
import Verif.Spec.Rule
import Verif.Model.GoText
/-!
# Specification vocabulary: the `.scan` text
-/
namespace Uip.Spec
open Uip

/-- Commas become underscores. -/
def noCommas (v : Str) : Str := v.map fun b => if b = 0x2C then 0x5F else b

/-- The network reaches the last address of its family. -/
def EndsFamily (n : IPNet) : Prop :=
  netEnd n = 2 ^ 128 ∨ (netEnd n = 0x10000 * 2 ^ 32 ∧ 0xffff * 2 ^ 32 ≤ netLo n)

instance (n) : Decidable (EndsFamily n) := by unfold EndsFamily; infer_instance

/-- The rows up to and including the first one that reaches the last address of its family. -/
def untilEnd : List IpRaw → List IpRaw
  | [] => []
  | r :: rs => if EndsFamily r.cidr then [r] else r :: untilEnd rs

/-- Rows that can be written as lines of text: field names without comma or line break, values without tab or
line break, one value per field, every line shorter than 64 KiB. -/
structure ScanOK (d : IpData) : Prop where
  fields_ne : d.fields ≠ []
  nodup : d.fields.Nodup
  fields : ∀ f ∈ d.fields, Avoids [0x2C, 0x0A, 0x0D] f
  fieldsLine : (joinByte 0x2C d.fields).length + 5 < 65536
  wf : ∀ r ∈ d.ips, WFNet r.cidr
  len : ∀ r ∈ d.ips, r.values.length = d.fields.length
  values : ∀ r ∈ d.ips, ∀ v ∈ r.values, Avoids [0x09, 0x0A, 0x0D] v
  short : ∀ r ∈ d.ips, (IPNetString r.cidr).length + 1 + (joinByte 0x2C r.values).length < 65536

instance (d : IpData) : Decidable (ScanOK d) :=
  decidable_of_iff (d.fields ≠ [] ∧ d.fields.Nodup ∧ (∀ f ∈ d.fields, Avoids [0x2C, 0x0A, 0x0D] f) ∧
      (joinByte 0x2C d.fields).length + 5 < 65536 ∧ (∀ r ∈ d.ips, WFNet r.cidr) ∧
      (∀ r ∈ d.ips, r.values.length = d.fields.length) ∧ (∀ r ∈ d.ips, ∀ v ∈ r.values, Avoids [0x09, 0x0A, 0x0D] v) ∧
      (∀ r ∈ d.ips, (IPNetString r.cidr).length + 1 + (joinByte 0x2C r.values).length < 65536))
    ⟨fun h => ⟨h.1, h.2.1, h.2.2.1, h.2.2.2.1, h.2.2.2.2.1, h.2.2.2.2.2.1, h.2.2.2.2.2.2.1, h.2.2.2.2.2.2.2⟩,
     fun h => ⟨h.1, h.2, h.3, h.4, h.5, h.6, h.7, h.8⟩⟩

/-- The text of the version and of the time fit on one line. -/
def LineOK (s : Str) : Prop := (0x0A : UInt8) ∉ s ∧ s.getLast? ≠ some 0x0D ∧ s.length + 30 < 65536

instance (s) : Decidable (LineOK s) := by unfold LineOK; infer_instance

end Uip.Spec
