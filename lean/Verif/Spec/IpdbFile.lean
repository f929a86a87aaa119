import Verif.Model.Ipdb.Reader
import Verif.Spec.Trie
/-!
# What an ipdb file must look like for no lookup to crash

A file is four bytes giving the length of a JSON block, the JSON block, and a body.  The body holds a table of
nodes (two 32-bit numbers each) and then the records (two bytes of length, then the text).  A number `v` in the
table is an inner node if it is below the node count `n`, "no record" if it is `n`, and otherwise the record at
position `v + 7 * n` of the body.
-/
namespace Uip.Spec
open Uip Uip.Ipdb

/-- Length of the JSON block. -/
def jsonLength (file : Bytes) : Nat := val (file.take 4)
/-- The JSON block. -/
def jsonBlock (file : Bytes) : Bytes := (file.drop 4).take (jsonLength file)
/-- The body. -/
def fileBody (file : Bytes) : Bytes := file.drop (4 + jsonLength file)

/-- The metadata agrees with the file: the table lies inside the body, the column of the language CN is not
negative, and every record the table points to has its length bytes inside the body (or lies beyond the end of
the whole file). -/
structure Sane (m : MetaData) (file : Bytes) : Prop where
  count : 0 ≤ m.nodeCount
  table : 8 * m.nodeCount ≤ m.totalSize
  column : ∀ off, mapGet m.languages (gs "CN") = some off → 0 ≤ off ∧ off + m.fields.length < 2 ^ 63
  records : ∀ (i : Nat) (b : Bool) (v : Nat), (i : Int) < m.nodeCount → child (fileBody file) i b = some v →
    (v : Int) > m.nodeCount →
      (v : Int) + 7 * m.nodeCount + 2 ≤ (fileBody file).length ∨ (file.length : Int) ≤ v + 7 * m.nodeCount

end Uip.Spec
