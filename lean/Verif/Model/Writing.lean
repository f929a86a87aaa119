import Verif.Model.Program
/-!
# Writing the outputs call by call: full disks, failing writes, a killed process

`Model/Program.lean` writes an output at once.  Here every `Write` call of a packer is a step of its own that the system may
cut short (`os.File.Write` returns an error exactly if it has not written everything) and in which the process may be killed
(also: before the call, having written nothing, and after it, having written all).  What the system has accepted stays in the file:
losing cached data in a power failure is not modelled, and neither is the error of `Close`, which `PackFile` ignores.
-/
namespace Uip.Ipdb
open Uip

/-- `/repo/db/format/ipdb/writer.go:98-106`: the three `WriteTo` calls, each one `Write` and none for an empty buffer (go 1.19
`bytes/buffer.go`). -/
def Writer.saveCalls (enc : MetaData → Bytes) (w : Writer) : List Bytes :=
  [intToBE32 (enc w.savedMeta).length ++ enc w.savedMeta, w.nodeChunk] ++ if w.dataChunk = [] then [] else [w.dataChunk]

end Uip.Ipdb

namespace Uip.Plain
open Uip

/-- `/repo/db/format/plain/packer.go:18-20`: the three header lines, one `Fprintf` each. -/
def headerCalls (verStr now : Str) (fields : List Str) : List Str :=
  [gs "#### scan dump " ++ now ++ gs " ####" ++ [0x0A], gs "#### " ++ verStr ++ [0x0A],
   gs "#### " ++ joinByte 0x2C fields ++ [0x0A]]

/-- Loop of `/repo/db/format/plain/packer.go:21-27`: one `Fprintf` for each row, and the heap left behind.  (A slice outside of
its array, the only way to panic, does not occur: `C89`.) -/
def rowCalls : List HRow → Heap → Res (List Str × Heap)
  | [], h => .ok ([], h)
  | r :: rs, h => do
    let h ← replaceComma h r.vals
    let line := IPNetString r.cidr ++ 0x09 :: joinByte 0x2C (h.read r.vals) ++ [0x0A]
    let (ls, h) ← rowCalls rs h
    return (line :: ls, h)

end Uip.Plain

namespace Uip.Program
open Uip

/-- What becomes of a `Write` call: all of it is written; only the first `m` bytes are (an error, if there are more); or the
process is killed after the first `m` bytes. -/
inductive Fate where
  | all
  | short (m : Nat)
  | dies (m : Nat)

/-- How a sequence of `Write` calls ends. -/
inductive Stop where
  | done
  | failed
  | killed

/-- The `Write` calls of the registered packers (`/repo/db/format/{ipdb,memip,plain}/packer.go`), each with whether its error is
looked at (`ipdb/writer.go:98-106` all three, `plain/packer.go:23-26` the rows but not the header in lines 18-20,
`memip/packer.go:38-45` none), and how the packer ends if no error it looks at occurs. -/
def outputCalls (w : World) (kind : Str) (d : HData) : List (Bool × Bytes) × Res HData :=
  if kind = gs ".ipdb" then
    match (Ipdb.NewWriter (Ipdb.buildMeta w.now d.version d.fields)).insertAllH d.heap d.rows with
    | .ok (x, h) => ((x.saveCalls w.encMeta).map fun b => (true, b), .ok { d with heap := h })
    | .err e => ([], .err e)
    | .panic => ([], .panic)
  else if kind = gs ".scan" then
    match Plain.rowCalls d.rows d.heap with
    | .ok (ls, h) => ((Plain.headerCalls (w.encVersion d.version) w.nowText d.fields).map (fun b => (false, b)) ++
        ls.map (fun b => (true, b)), .ok { d with heap := h })
    | .err e => ([], .err e)
    | .panic => ([], .panic)
  else if kind = gs ".memip" then
    ((Memip.packCalls d.view).map fun b => (false, b), match Memip.pack d.view with
      | .ok _ => .ok d
      | .err e => .err e
      | .panic => .panic)
  else ([], .err .unsupportedFormat)

/-- `Write` calls on a file, `n` calls having been made before: the bytes accepted, the number of calls made, the end. -/
def perform (disk : Nat → Fate) : List (Bool × Bytes) → Nat → Bytes × Nat × Stop
  | [], n => ([], n, .done)
  | (checked, b) :: cs, n => match disk n with
    | .all => let r := perform disk cs (n + 1)
      (b ++ r.1, r.2)
    | .short m =>
      if m < b.length ∧ checked = true then (b.take m, n + 1, .failed)
      else let r := perform disk cs (n + 1)
        (b.take m ++ r.1, r.2)
    | .dies m => (b.take m, n + 1, .killed)

/-- `/repo/db/convert/packer.go:15-23` PackFile on such a system: the files, the number of calls made and the result, `none`
if killed. -/
def PackFileD (w : World) (canCreate : Str → Bool) (disk : Nat → Fate) (fs : Fs) (n : Nat) (ipFile : Str) (d : HData) :
    Fs × Nat × Option (Res HData) :=
  if canCreate ipFile = false then (fs, n, some (.err (.other "create")))
  else
    let c := outputCalls w (pathExt ipFile) d
    match perform disk c.1 n with
    | (b, n, .done) => (fs.set ipFile b, n, some c.2)
    | (b, n, .failed) => (fs.set ipFile b, n, some (.err (.other "write")))
    | (b, n, .killed) => (fs.set ipFile b, n, none)

/-- Loop of `/repo/cmd/converter/main.go:57-65` on such a system. -/
def writeAllD (w : World) (canCreate : Str → Bool) (disk : Nat → Fate) : List Str → Fs → Nat → HData → Fs × Option (Res Unit)
  | [], fs, _, _ => (fs, some (.ok ()))
  | o :: os, fs, n, d => match PackFileD w canCreate disk fs n o d with
    | (fs, n, some (.ok d)) => writeAllD w canCreate disk os fs n d
    | (fs, _, some (.err e)) => (fs, some (.err e))
    | (fs, _, some .panic) => (fs, some .panic)
    | (fs, _, none) => (fs, none)

/-- `/repo/cmd/converter/main.go:20-66` main on such a system: nothing is written before the outputs. -/
def converterD (w : World) (fuel : Nat) (orders : Nat → List Str) (canCreate : Str → Bool) (disk : Nat → Fate) (fs : Fs) (a : Args) :
    Option (Fs × Option (Res Unit)) :=
  let reg := converterFormats w fuel
  let run (lineQ : Option OpenDb) : Option (Fs × Option (Res Unit)) :=
    (DumpFile reg fs a.input (ruleText a.rule) (operations w orders lineQ a.lineReplace)).map fun r => match r with
      | .ok d => writeAllD w canCreate disk (splitByte 0x2C a.output) fs 0 d
      | .err e => (fs, some (.err e))
      | .panic => (fs, some .panic)
  if a.line ≠ [] then match NewDb w reg fs a.line with
    | .ok q => run (some q)
    | .err e => some (fs, some (.err e))
    | .panic => some (fs, some .panic)
  else run none

end Uip.Program
