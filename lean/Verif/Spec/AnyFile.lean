import Verif.Spec.IpdbFile
import Verif.Spec.Readers
/-!
# The ipdb file format, for files of any origin

`Verif/Spec/IpdbFile.lean` has the three parts of a file.  Here: which files are well formed, which record an address
has, and what the record says.
-/
namespace Uip.Spec
open Uip Uip.Ipdb

/-- A file that follows the format, with metadata `m`: its sizes add up and stay below 2 GiB, the node table is not empty
and lies inside the body, its numbers are below 2^31, and there are fields. -/
structure WellFormed (m : MetaData) (file : Bytes) : Prop where
  size : (file.length : Int) = 4 + jsonLength file + m.totalSize
  small : file.length < 2 ^ 31
  count : 0 < m.nodeCount
  table : 8 * m.nodeCount ≤ m.totalSize
  numbers : ∀ (i : Nat) (b : Bool) (v : Nat), (i : Int) < m.nodeCount → child (fileBody file) i b = some v → v < 2 ^ 31
  fields : m.fields ≠ []

/-- The families a file declares. -/
def MetaData.holds4 (m : MetaData) : Prop := m.ipVersion &&& 1 = 1
def MetaData.holds6 (m : MetaData) : Prop := m.ipVersion &&& 2 = 2

/-- An address that all readers take: an IPv4 address in a file with IPv4 addresses, or an IPv6 address in a file with
IPv6 addresses (and with IPv4 addresses if it is an IPv4 address in its 16-byte form). -/
def Taken (m : MetaData) (a : IP) : Prop :=
  (a.length = 4 ∧ MetaData.holds4 m) ∨
    (a.length = 16 ∧ MetaData.holds6 m ∧ (addrNum a / 2 ^ 32 = 0xffff → MetaData.holds4 m))

/-- The file has the record `rec` for the address: the path of the address (in its 16-byte form) through the table ends,
after `depth` bits, at the number `v` above the node count, and at position `v + 7 * nodeCount` of the body there are two
bytes with the length of `rec` and then `rec`. -/
def HasRecord (m : MetaData) (file : Bytes) (a : IP) (rec : Bytes) (depth : Nat) : Prop :=
  ∃ (a16 : IP) (v : Nat) (hi lo : UInt8) (rest : Bytes), To16 a = some a16 ∧
    trieWalk (fileBody file) m.nodeCount (bits a16) 0 0 = some (v, depth) ∧ m.nodeCount < v ∧
    (fileBody file).drop (v + 7 * m.nodeCount).toNat = hi :: lo :: rec ++ rest ∧ hi.toNat * 256 + lo.toNat = rec.length

/-- The columns of the language CN begin with the one numbered `off`, and all of them belong to the record. -/
def Chinese (m : MetaData) (off : Nat) : Prop :=
  mapGet m.languages (gs "CN") = some (off : Int) ∧ off + m.fields.length ≤ m.fields.length * m.languages.length

/-- As many columns of a record as there are fields, from the one numbered `off` on. -/
def columns (m : MetaData) (off : Nat) (rec : Bytes) : List Str := ((splitByte 0x09 rec).drop off).take m.fields.length

/-- A complete record: a text with a column for every field in every language. -/
def Complete (m : MetaData) (rec : Bytes) : Prop :=
  (∃ s : String, rec = gs s) ∧ (splitByte 0x09 rec).length = m.fields.length * m.languages.length

/-- What columns say: the names are those of the format. -/
def fileInfo (fields cols : List Str) : IpInfo :=
  { country := attr [gs "country_name"] fields cols
    district := attr [gs "district"] fields cols
    province := attr [gs "region_name"] fields cols
    city := attr [gs "city_name"] fields cols
    asn := attr [gs "asn"] fields cols
    isp := attr [gs "isp_domain"] fields cols
    continent := spellContinent (attr [gs "continent_code"] fields cols)
    line := attr [gs "line"] fields cols }

end Uip.Spec
