import Verif.Model.Ipdb.Writer
import Verif.Model.Plain
import Verif.Model.Memip
/-!
# Writing one data set to several outputs
(`/repo/db/format/formats.go`, `/repo/db/convert/packer.go`, `/repo/cmd/converter/main.go:57-65`, and the in-place
writes of `/repo/db/format/ipdb/writer.go`)
-/
namespace Uip.Ipdb
open Uip

/-- `/repo/db/format/ipdb/writer.go:123-140` on the shared slice: the continent is replaced in place (storing an
unchanged value where no case applies makes no difference). -/
def convInPlace (off : Option Nat) (h : Heap) (s : Slice) : Res Heap :=
  match off with
  | none => .ok h
  | some i => do
    let v ← h.get s i
    h.put s i (continentCode v)

/-- `/repo/db/format/ipdb/writer.go:112-144` insert, with the heap. -/
def Writer.insertH (w : Writer) (h : Heap) (ipNet : IPNet) (s : Slice) : Res (Writer × Heap × Option Err) := do
  let mask := (maskSize ipNet.mask).1
  let (w, node, index, ok) ← w.Nodes ipNet.ip mask
  let e ← w.get node index
  if !ok then
    let _ ← w.resolve (-e)
    return (w, h, some .invalidCIDR)
  else if e > 0 then return (w, h, some .cidrConflict)
  else
    let h ← convInPlace w.continentOffset h s
    let (w, offset) := w.Fields (h.read s)
    let w ← w.put node index (-(offset : Int))
    return (w, h, none)

/-- Loop of `/repo/db/format/ipdb/packer.go:13-15`, with the heap. -/
def Writer.insertAllH (w : Writer) (h : Heap) : List HRow → Res (Writer × Heap)
  | [] => .ok (w, h)
  | v :: vs => do
    let (w, h, _) ← w.insertH h v.cidr v.vals
    Writer.insertAllH w h vs

/-- `/repo/db/format/ipdb/packer.go:8-17` pack: the bytes written and the data set left behind. -/
def packH (enc : MetaData → Bytes) (now : Int) (d : HData) : Res (Bytes × HData) := do
  let (w, h) ← (NewWriter (buildMeta now d.version d.fields)).insertAllH d.heap d.rows
  return (w.Save enc, { d with heap := h })

end Uip.Ipdb

namespace Uip.Convert
open Uip

/-- What an output depends on beside the data: the JSON encoders and the time. -/
structure Env where
  encMeta : Ipdb.MetaData → Bytes
  encVersion : VersionInfo → Str
  now : Int
  nowText : Str

/-- `/repo/db/convert/packer.go:34-42` PackWriter with the registered packers
(`/repo/db/format/{ipdb,memip,plain}/init.go`; awdb registers none). -/
def PackWriter (env : Env) (kind : Str) (d : HData) : Res (Bytes × HData) :=
  if kind = gs ".ipdb" then Ipdb.packH env.encMeta env.now d
  else if kind = gs ".scan" then Plain.pack env.encVersion env.nowText d
  else if kind = gs ".memip" then do
    let t ← Memip.pack d.view
    return (t, d)
  else .err .unsupportedFormat

/-- Loop of `/repo/cmd/converter/main.go:57-65` over the outputs, each with its own moment: the contents written. -/
def outputs : List (Env × Str) → HData → Res (List Bytes)
  | [], _ => .ok []
  | o :: os, d => do
    let (b, d) ← PackWriter o.1 o.2 d
    let bs ← outputs os d
    return b :: bs

end Uip.Convert
