import Verif.Spec.AnyFile
/-!
# Files on which the Java and the Rust reader do not crash
-/
namespace Uip.Spec
open Uip Uip.Ipdb

/-- Position `p` of the body can be read as a record without a crash: the two length bytes are there, and if the text is
there as well it has all columns of the language CN (when it is read with `utf8`); or `p` lies beyond the end of the whole file
(which is checked), and is still a 32-bit number. -/
def Readable (utf8 : Bytes → Str) (m : MetaData) (file : Bytes) (p : Nat) : Prop :=
  (p + 2 ≤ (fileBody file).length ∧
    ∀ (hi lo : UInt8) (rec rest : Bytes), (fileBody file).drop p = hi :: lo :: rec ++ rest → hi.toNat * 256 + lo.toNat = rec.length →
      ∀ off, mapGet m.languages (gs "CN") = some off → off + m.fields.length ≤ (splitByte 0x09 (utf8 rec)).length) ∨
  (file.length ≤ p ∧ p < 2 ^ 31)

/-- The sizes in the file add up. -/
def AddsUp (m : MetaData) (file : Bytes) : Prop := (file.length : Int) = 4 + jsonLength file + m.totalSize

/-- The table fits the file: it is not empty and lies inside the body, its numbers are below 2^31, the columns of the
language CN (if there is one) are among those of a record with all languages, and every number that is not a node leads
to a readable record. -/
structure Tidy (utf8 : Bytes → Str) (m : MetaData) (file : Bytes) : Prop where
  count : 0 < m.nodeCount
  table : 8 * m.nodeCount ≤ m.totalSize
  numbers : ∀ (i : Nat) (b : Bool) (v : Nat), (i : Int) < m.nodeCount → child (fileBody file) i b = some v → v < 2 ^ 31
  inside : ∀ off, mapGet m.languages (gs "CN") = some off →
    0 ≤ off ∧ off + m.fields.length ≤ ((m.fields.length * m.languages.length : Nat) : Int)
  records : ∀ (i : Nat) (b : Bool) (v : Nat), (i : Int) < m.nodeCount → child (fileBody file) i b = some v →
    m.nodeCount ≤ v → Readable utf8 m file (v + 7 * m.nodeCount).toNat

end Uip.Spec
