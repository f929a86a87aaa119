import Verif.Spec.Scan
import Verif.Model.GoText
/-!
# Which rows survive a `.scan` text
-/
namespace Uip.Spec.Survive
open Uip Uip.Spec

/-- Field names that fit the third line of the text. -/
structure Titles (fields : List Str) : Prop where
  some : fields ≠ []
  nodup : fields.Nodup
  plain : ∀ f ∈ fields, Avoids [0x2C, 0x0A, 0x0D] f
  short : (joinByte 0x2C fields).length + 5 < 65536

/-- A row that a line of the text can hold, with `count` values. -/
structure Fits (count : Nat) (r : IpRaw) : Prop where
  /-- it is a network -/
  net : WFNet r.cidr
  /-- it is not an IPv4 network in 16 bytes -/
  form : r.cidr.ip.length = 4 ∨ To4 r.cidr.ip = none
  /-- it has a value for each field -/
  len : r.values.length = count
  /-- no value has a tab or a newline -/
  plain : ∀ v ∈ r.values, Avoids [0x09, 0x0A] v
  /-- the last value does not end with a carriage return -/
  ending : ∀ v, r.values.getLast? = some v → v.getLast? ≠ some 0x0D
  /-- the line is shorter than 64 KiB -/
  short : (IPNetString r.cidr).length + 1 + (joinByte 0x2C r.values).length < 65536

instance (fields) : Decidable (Titles fields) :=
  decidable_of_iff (fields ≠ [] ∧ fields.Nodup ∧ (∀ f ∈ fields, Avoids [0x2C, 0x0A, 0x0D] f) ∧ (joinByte 0x2C fields).length + 5 < 65536)
    ⟨fun h => ⟨h.1, h.2.1, h.2.2.1, h.2.2.2⟩, fun h => ⟨h.1, h.2, h.3, h.4⟩⟩

instance (l : List Str) (p : Str → Prop) [DecidablePred p] : Decidable (∀ v, l.getLast? = some v → p v) :=
  match h : l.getLast? with
  | none => isTrue fun _ h => nomatch h
  | some x => decidable_of_iff (p x) ⟨fun hp v e => Option.some.inj e ▸ hp, fun hp => hp x rfl⟩

instance (count r) : Decidable (Fits count r) :=
  decidable_of_iff (WFNet r.cidr ∧ (r.cidr.ip.length = 4 ∨ To4 r.cidr.ip = none) ∧ r.values.length = count ∧
      (∀ v ∈ r.values, Avoids [0x09, 0x0A] v) ∧ (∀ v, r.values.getLast? = some v → v.getLast? ≠ some 0x0D) ∧
      (IPNetString r.cidr).length + 1 + (joinByte 0x2C r.values).length < 65536)
    ⟨fun h => ⟨h.1, h.2.1, h.2.2.1, h.2.2.2.1, h.2.2.2.2.1, h.2.2.2.2.2⟩, fun h => ⟨h.1, h.2, h.3, h.4, h.5, h.6⟩⟩

/-- Only the last row reaches the last address of its family. -/
def EndsLast (rs : List IpRaw) : Prop := ∀ i r, rs[i]? = some r → EndsFamily r.cidr → i + 1 = rs.length

end Uip.Spec.Survive
