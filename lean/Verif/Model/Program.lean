import Verif.Model.Registry
import Verif.Model.Convert
import Verif.Model.Ipdb.Dump
import Verif.Model.Awdb.Reader
import Verif.Model.Operate
import Verif.Model.Query
/-!
# The programs: opening, dumping and writing files by extension
(`/repo/db/format/*/init.go`, `/repo/db/query/query.go`, `/repo/db/convert/*.go`, `/repo/cmd/*/main.go`, `/repo/cmd/server/server.go`)

Files are a map from names to contents.  Log output is left out.  Every write succeeds completely here (see
`Model/Writing.lean` for writes that do not); `leftBy` is what a crash leaves in the file being written.
-/
namespace Uip.Program
open Uip Uip.Operate

/-- What the programs depend on beside their input: JSON, the clock, text of dates and numbers, the capacities the Go
runtime gives to slices, and the warm-up list `ipList` (`/repo/db/query/cache.go:4`). -/
structure World where
  encMeta : Ipdb.MetaData → Bytes
  decMeta : Bytes → Option Ipdb.MetaData
  encVersion : VersionInfo → Str
  decVersion : Str → Option (Option VersionInfo)
  now : Int
  nowText : Str
  day : Str
  fmtDate : Int → Str
  dec : Int → Str
  cap : Nat → Nat
  grow : Nat → Nat
  warm : Str

/-- `/repo/db/inf/db_inf.go:24-28` inf.Query: the two implementations. -/
inductive OpenDb where
  | ipdb (q : Ipdb.Querier)
  | awdb (r : Awdb.Reader)

/-- `/repo/db/format/ipdb/querier.go:36-39`, `/repo/db/format/awdb/querier.go:35-50`. -/
def OpenDb.query : OpenDb → QueryFn
  | .ipdb q => q.Query
  | .awdb r => r.Query

/-- `/repo/db/format/ipdb/querier.go:82-84`, `/repo/db/format/awdb/querier.go:80-82`. -/
def OpenDb.versionInfo (w : World) : OpenDb → VersionInfo
  | .ipdb q => q.r.version w.fmtDate
  | .awdb r => r.version

/-- `/repo/db/format/ipdb/querier.go:23-34` over the texts; `/repo/db/format/awdb/querier.go:63-64` does nothing. -/
def OpenDb.buildCache : OpenDb → List Str → Res OpenDb
  | .ipdb q, ipList => do
    let q ← q.BuildCache ((ipList.filter (· ≠ [])).map fun s => (ParseIP s).getD [])
    return .ipdb q
  | .awdb r, _ => .ok (.awdb r)

/-- `/repo/db/inf/db_inf.go:22`, `/repo/db/inf/intern.go:20,27`: the creators. `none` of a dump: still running. -/
abbrev DumpF := Bytes → Option Export.Exporter → Option (Res HData)
abbrev NewQueryF := Bytes → Res OpenDb
abbrev PackF := HData → Res (Bytes × HData)
abbrev Formats := Registry DumpF NewQueryF PackF

/-- The values of `export.BuildIPData` have their exact capacity with an exporter (`/repo/db/field/export/export.go:76`),
and the one reached by `append` without. -/
def capOf (w : World) (ept : Option Export.Exporter) : Nat → Nat := if ept.isSome then id else w.cap

/-- A dump whose result is given its slices. -/
def withSlices (cap : Nat → Nat) (r : Option (Res IpData)) : Option (Res HData) :=
  r.map fun r => r >>= fun d => .ok (dumped cap d)

/-- `/repo/db/format/ipdb/init.go:7-11`. -/
def ipdbInit (w : World) (fuel : Nat) (r : Formats) : Formats :=
  ((r.RegisterDumpFormat (gs ".ipdb") (some fun b e => withSlices (capOf w e) (Ipdb.dump fuel w.decMeta w.fmtDate b e)))
    |>.RegisterQueryFormat (gs ".ipdb") (some fun b => do
      let q ← Ipdb.newQuerier w.decMeta b
      return .ipdb q))
    |>.RegisterPackFormat (gs ".ipdb") (some (Ipdb.packH w.encMeta w.now))

/-- `/repo/db/format/awdb/init.go:5-8`. -/
def awdbInit (w : World) (fuel : Nat) (r : Formats) : Formats :=
  (r.RegisterDumpFormat (gs ".awdb") (some fun b e => withSlices (capOf w e) (Awdb.dump fuel b e)))
    |>.RegisterQueryFormat (gs ".awdb") (some fun b => do
      let r ← Awdb.open_ b
      return .awdb r)

/-- `/repo/db/format/memip/init.go:12-15`. -/
def memipInit (w : World) (r : Formats) : Formats :=
  (r.RegisterDumpFormat (gs ".memip") (some fun b _ => withSlices id (some (Memip.dump w.now w.day b))))
    |>.RegisterPackFormat (gs ".memip") (some fun d => do
      let t ← Memip.pack d.view
      return (t, d))

/-- `/repo/db/format/plain/init.go:7-10`. -/
def plainInit (w : World) (r : Formats) : Formats :=
  (r.RegisterDumpFormat (gs ".scan") (some fun b e => withSlices id (some (Plain.dump w.decVersion b e))))
    |>.RegisterPackFormat (gs ".scan") (some (Plain.pack w.encVersion w.nowText))

/-- The packages `/repo/cmd/server/main.go:7-8` and `/repo/cmd/simple/main.go:9-10` import. -/
def serverFormats (w : World) (fuel : Nat) : Formats := ipdbInit w fuel (awdbInit w fuel {})

/-- The packages `/repo/cmd/converter/main.go:13-16` imports. -/
def converterFormats (w : World) (fuel : Nat) : Formats :=
  plainInit w (memipInit w (ipdbInit w fuel (awdbInit w fuel {})))

/-! ## db/query -/

/-- `/repo/db/query/query.go:29-39` NewDbFromBytes. -/
def NewDbFromBytes (w : World) (reg : Formats) (kind : Str) (b : Bytes) : Res OpenDb :=
  match reg.GetQueryFormat kind with
  | none => .err .unsupportedFormat
  | some create => do
    let q ← create b
    q.buildCache (splitByte 0x0A w.warm)

/-- The files a program sees; `none` cannot be read. -/
abbrev Fs := Str → Option Bytes

/-- `/repo/db/query/query.go:20-27` NewDb: a file that cannot be read panics. -/
def NewDb (w : World) (reg : Formats) (fs : Fs) (file : Str) : Res OpenDb :=
  match fs file with
  | none => .panic
  | some b => NewDbFromBytes w reg (pathExt file) b

/-! ## db/convert -/

/-- Loop of `/repo/db/convert/dumper.go:33-35`. -/
def runOps : List (HData → Res HData) → HData → Res HData
  | [], d => .ok d
  | op :: ops, d => do
    let d ← op d
    runOps ops d

/-- `/repo/db/convert/dumper.go:14-37` DumpFile. -/
def DumpFile (reg : Formats) (fs : Fs) (ipFile rule : Str) (ops : List (HData → Res HData)) : Option (Res HData) :=
  match fs ipFile with
  | none => some (.err (.other "read file"))
  | some data => match reg.GetDumpFormat (pathExt ipFile) with
    | none => some (.err .unsupportedFormat)
    | some create => (create data (Export.ParseRule rule)).map fun r => r >>= runOps ops

/-- `/repo/db/convert/packer.go:34-42` PackWriter: what is written, and the data set left behind. -/
def PackWriter (reg : Formats) (kind : Str) (d : HData) : Res (Bytes × HData) :=
  match reg.GetPackFormat kind with
  | none => .err .unsupportedFormat
  | some create => create d

/-- `/repo/db/convert/packer.go:25-32` PackBytes. -/
def PackBytes (reg : Formats) (kind : Str) (d : HData) : Res (Bytes × HData) := PackWriter reg kind d

/-- The files after writing one. -/
def Fs.set (fs : Fs) (name : Str) (b : Bytes) : Fs := fun n => if n = name then some b else fs n

/-- What a packer that panics has written by then.  The memip packer writes its lines one by one
(`/repo/db/format/memip/packer.go:38-45`); the ipdb packer can only panic before its first write
(`/repo/db/format/ipdb/packer.go`, `Save` comes last), and the plain packer not at all. -/
def leftBy (kind : Str) (d : HData) : Bytes := if kind = gs ".memip" then (Memip.packCalls d.view).flatten else []

/-- `/repo/db/convert/packer.go:15-23` PackFile: `os.Create` comes first, so the file is there and empty whatever happens
next.  `canCreate` says for which names `os.Create` succeeds. -/
def PackFile (reg : Formats) (canCreate : Str → Bool) (fs : Fs) (ipFile : Str) (d : HData) : Fs × Res HData :=
  if canCreate ipFile = false then (fs, .err (.other "create"))
  else match PackWriter reg (pathExt ipFile) d with
    | .ok (b, d) => (fs.set ipFile b, .ok d)
    | .err e => (fs.set ipFile [], .err e)
    | .panic => (fs.set ipFile (leftBy (pathExt ipFile) d), .panic)

/-! ## cmd/converter -/

/-- `/repo/cmd/converter/main.go:21-25` the flags. -/
structure Args where
  input : Str
  output : Str
  rule : Str
  line : Str
  lineReplace : Bool

/-- `/repo/cmd/converter/main.go:27-44` the operations; `orders` are the map iteration orders of TrimAsnIspDup. -/
def operations (w : World) (orders : Nat → List Str) (lineQ : Option OpenDb) (replace : Bool) : List (HData → Res HData) :=
  [ReplaceShortage NormalizedMap, TrimAsnIspDup orders, MergeNearNetwork] ++
  (match lineQ with
   | none => []
   | some q =>
     let l : LineDb := ⟨(q.versionInfo w).version, (q.versionInfo w).build, q.query⟩
     [if replace then ReplaceLineByCidr w.dec l else AttachLineByCidr w.grow w.dec l]) ++
  [AttachDistrict w.grow]

/-- Loop of `/repo/cmd/converter/main.go:57-65`: the files, and whether all outputs were written. -/
def writeAll (reg : Formats) (canCreate : Str → Bool) : List Str → Fs → HData → Fs × Res Unit
  | [], fs, _ => (fs, .ok ())
  | o :: os, fs, d => match PackFile reg canCreate fs o d with
    | (fs, .ok d) => writeAll reg canCreate os fs d
    | (fs, .err e) => (fs, .err e)
    | (fs, .panic) => (fs, .panic)

/-- `/repo/cmd/converter/main.go:45-48`. -/
def ruleText (r : Str) : Str := if r = gs "default" then Export.DefaultRule else r

/-- `/repo/cmd/converter/main.go:20-66` main: the files left behind and the outcome (an error is logged); `none` while the
dump is still running. -/
def converter (w : World) (fuel : Nat) (orders : Nat → List Str) (canCreate : Str → Bool) (fs : Fs) (a : Args) :
    Option (Fs × Res Unit) :=
  let reg := converterFormats w fuel
  let run (lineQ : Option OpenDb) : Option (Fs × Res Unit) :=
    (DumpFile reg fs a.input (ruleText a.rule) (operations w orders lineQ a.lineReplace)).map fun r => match r with
      | .ok d => writeAll reg canCreate (splitByte 0x2C a.output) fs d
      | .err e => (fs, .err e)
      | .panic => (fs, .panic)
  if a.line ≠ [] then match NewDb w reg fs a.line with
    | .ok q => run (some q)
    | .err e => some (fs, .err e)
    | .panic => some (fs, .panic)
  else run none

/-! ## cmd/server, cmd/simple -/

/-- Answer of an HTTP handler: status and body. -/
structure Reply where
  status : Nat
  body : Bytes
  deriving DecidableEq

/-- `/repo/cmd/server/server.go:20-29` the handler of `/`; `path` starts with a slash, `enc` is `json.Marshal`. -/
def serveQuery (enc : IpInfo → Bytes) (q : OpenDb) (path : Str) : Res Reply :=
  match path with
  | [] => .panic
  | _ :: ip => match Db.QueryStr ParseIP q.query ip with
    | .ok (i, _) => .ok ⟨200, enc i⟩
    | .err _ => .ok ⟨404, []⟩
    | .panic => .panic

/-- What `/repo/cmd/simple/main.go:13-33` prints. -/
inductive Shown where
  | version (v : VersionInfo)
  | info (i : IpInfo)
  | failed (e : Err)
  deriving DecidableEq

/-- `/repo/cmd/simple/main.go:13-33` main. -/
def simple (w : World) (fuel : Nat) (fs : Fs) (file ip : Str) : Res Shown :=
  match NewDb w (serverFormats w fuel) fs file with
  | .panic => .panic
  | .err e => .ok (.failed e)
  | .ok q =>
    if (gs "v").isPrefixOf ip then .ok (.version (q.versionInfo w))
    else match Db.QueryStr ParseIP q.query ip with
      | .panic => .panic
      | .err e => .ok (.failed e)
      | .ok (i, _) => .ok (.info i)

end Uip.Program
