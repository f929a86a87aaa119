import Verif.Model.Awdb.Reader
/-!
# The other lookups of an awdb reader

`/repo/db/format/awdb/reader.go:117-221`.  The reader is open (its buffer is not nil).
-/
namespace Uip.Awdb
open Uip

/-- `/repo/db/format/awdb/reader.go:13-16` NotFound, `^uintptr(0)` on a 64-bit machine. -/
def NotFound : Nat := 2 ^ 64 - 1

/-- `/repo/db/format/awdb/reader.go:123-132` Lookup into an empty interface: the record stored, `none` if nothing is
stored. -/
def Reader.Lookup (r : Reader) (ip : IP) : Res (Option Val) := do
  let (pointer, _, _) ← r.lookupPointer ip
  if pointer = 0 then return none
  else do
    let v ← r.retrieveData pointer
    return some v

/-- `/repo/db/format/awdb/reader.go:162-171` LookupOffset. -/
def Reader.LookupOffset (r : Reader) (ip : IP) : Res Nat := do
  let (pointer, _, _) ← r.lookupPointer ip
  if pointer = 0 then return NotFound
  else r.resolveDataPointer pointer

/-- `/repo/db/format/awdb/reader.go:207-221` Decode, decode, into an empty interface. -/
def Reader.Decode (r : Reader) (offset : Nat) : Res Val := do
  let (v, _) ← decodeAny r.data 513 offset
  return v

end Uip.Awdb
