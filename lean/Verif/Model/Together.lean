import Verif.Model.Writing
/-!
# Programs that run at the same time

Converters, and servers or `simple`s that are starting, share the file system.  Each is a process; a step of a process is one
system call on a file: opening it, reading some bytes (`os.ReadFile` reads until it gets none), creating it, writing some bytes.
How many bytes a call moves, at least one, is up to the system; so is which process is next.  Everything else a process does
(`Model/Program.lean`) it does on bytes it has read, between two steps.  Writes succeed here, as in `Model/Program.lean`; a
file is opened by its name and not removed or renamed while it is open.
-/
namespace Uip.Program
open Uip

/-- A run of `/repo/cmd/converter/main.go:20-66` main: its clock and JSON, the map orders of the run, what it may create, its
arguments. -/
structure Job where
  w : World
  fuel : Nat
  orders : Nat → List Str
  canCreate : Str → Bool
  args : Args

/-- A process: a converter, or a program that opens a database (`/repo/db/query/query.go:20-27` NewDb in
`/repo/cmd/server/main.go` and `/repo/cmd/simple/main.go:15`). -/
inductive Proc where
  | convert (j : Job)
  | opener (w : World) (fuel : Nat) (file : Str)

/-- How a process ends. -/
inductive Outcome where
  | converted (r : Res Unit)
  | opened (r : Res OpenDb)

/-- Where a process is: not begun; reading its line file, its input or its database (`got` so far, after which the next read
goes on); in a dump that does not end; about to create the first of `os`; writing `rest` to `o` at `off`, after which the packer
ends as `res`; done. -/
inductive Phase where
  | begin
  | readingLine (got : Bytes)
  | readingInput (lineQ : Option OpenDb) (got : Bytes)
  | readingDb (got : Bytes)
  | hung
  | outputs (os : List Str) (d : HData)
  | writing (o : Str) (off : Nat) (rest : Bytes) (res : Res HData) (more : List Str)
  | finished (r : Outcome)

/-- `write(2)` at the offset of a file descriptor: what is there is overwritten, a gap is filled with zeros. -/
def Fs.writeAt (fs : Fs) (name : Str) (off : Nat) (b : Bytes) : Fs :=
  let c := (fs name).getD []
  fs.set name (c.take off ++ List.replicate (off - c.length) 0 ++ b ++ c.drop (off + b.length))

/-- `read(2)` after `got`, of at most `k + 1` bytes: nothing at the end of the file. -/
def Fs.readOn (fs : Fs) (name : Str) (got : Bytes) (k : Nat) : Bytes := (((fs name).getD []).drop got.length).take (k + 1)

/-- `/repo/cmd/converter/main.go:32-36`: the line database is opened by `query.NewDb` from what was read. -/
def Job.lineDb (j : Job) (data : Bytes) : Res OpenDb :=
  NewDb j.w (converterFormats j.w j.fuel) (fun _ => some data) j.args.line

/-- `/repo/db/convert/dumper.go:20-37` on what was read. -/
def Job.dump (j : Job) (lineQ : Option OpenDb) (data : Bytes) : Option (Res HData) :=
  DumpFile (converterFormats j.w j.fuel) (fun _ => some data) j.args.input (ruleText j.args.rule)
    (operations j.w j.orders lineQ j.args.lineReplace)

/-- `/repo/cmd/converter/main.go:57`. -/
def Job.outs (j : Job) : List Str := splitByte 0x2C j.args.output

/-- `/repo/db/convert/dumper.go:15-18`: opening the input. -/
def Job.openInput (j : Job) (fs : Fs) (lineQ : Option OpenDb) : Phase :=
  match fs j.args.input with
  | none => .finished (.converted (.err (.other "read file")))
  | some _ => .readingInput lineQ []

/-- After the dump: `/repo/cmd/converter/main.go:50-57`. -/
def Job.dumpedPhase (j : Job) (r : Option (Res HData)) : Phase :=
  match r with
  | none => .hung
  | some (.ok d) => .outputs j.outs d
  | some (.err e) => .finished (.converted (.err e))
  | some .panic => .finished (.converted .panic)

/-- After a packer: `/repo/cmd/converter/main.go:57-65`. -/
def packedPhase (r : Res HData) (more : List Str) : Phase :=
  match r with
  | .ok d => .outputs more d
  | .err e => .finished (.converted (.err e))
  | .panic => .finished (.converted .panic)

/-- One step of a converter; `k + 1` is the most the call moves. -/
def Job.step (j : Job) (k : Nat) (fs : Fs) : Phase → Phase × Fs
  | .begin =>
    if j.args.line ≠ [] then match fs j.args.line with
      | none => (.finished (.converted .panic), fs)
      | some _ => (.readingLine [], fs)
    else (j.openInput fs none, fs)
  | .readingLine got => match fs.readOn j.args.line got k with
    | [] => match j.lineDb got with
      | .ok q => (j.openInput fs (some q), fs)
      | .err e => (.finished (.converted (.err e)), fs)
      | .panic => (.finished (.converted .panic), fs)
    | b :: bs => (.readingLine (got ++ b :: bs), fs)
  | .readingInput q got => match fs.readOn j.args.input got k with
    | [] => (j.dumpedPhase (j.dump q got), fs)
    | b :: bs => (.readingInput q (got ++ b :: bs), fs)
  | .outputs [] _ => (.finished (.converted (.ok ())), fs)
  | .outputs (o :: os) d =>
    if j.canCreate o = false then (.finished (.converted (.err (.other "create"))), fs)
    else
      let c := outputCalls j.w (pathExt o) d
      (.writing o 0 (c.1.map Prod.snd).flatten c.2 os, fs.set o [])
  | .writing _ _ [] res more => (packedPhase res more, fs)
  | .writing o off (b :: bs) res more =>
    let now := (b :: bs).take (k + 1)
    (.writing o (off + now.length) ((b :: bs).drop (k + 1)) res more, fs.writeAt o off now)
  | p => (p, fs)

/-- One step of a program that opens a database. -/
def openerStep (w : World) (fuel : Nat) (file : Str) (k : Nat) (fs : Fs) : Phase → Phase × Fs
  | .begin => match fs file with
    | none => (.finished (.opened .panic), fs)
    | some _ => (.readingDb [], fs)
  | .readingDb got => match fs.readOn file got k with
    | [] => (.finished (.opened (NewDb w (serverFormats w fuel) (fun _ => some got) file)), fs)
    | b :: bs => (.readingDb (got ++ b :: bs), fs)
  | p => (p, fs)

/-- One step of a process. -/
def Proc.step (k : Nat) (fs : Fs) (p : Phase) : Proc → Phase × Fs
  | .convert j => j.step k fs p
  | .opener w fuel file => openerStep w fuel file k fs p

/-- The files and where each process is. -/
structure Moment (ι : Type) where
  fs : Fs
  at_ : ι → Phase

/-- One step of process `i`. -/
def Moment.step {ι : Type} [DecidableEq ι] (procs : ι → Proc) (s : Moment ι) (x : ι × Nat) : Moment ι :=
  let r := (procs x.1).step x.2 s.fs (s.at_ x.1)
  { fs := r.2, at_ := fun i => if i = x.1 then r.1 else s.at_ i }

/-- A schedule: which process makes the next step, and how much it may move. -/
def schedule {ι : Type} [DecidableEq ι] (procs : ι → Proc) (s : Moment ι) : List (ι × Nat) → Moment ι
  | [] => s
  | x :: xs => schedule procs (s.step procs x) xs

/-- Nothing has begun. -/
def Moment.start {ι : Type} (fs : Fs) : Moment ι := { fs := fs, at_ := fun _ => .begin }

/-! ## Runs of their own -/

/-- A process by itself, from the files `fs`: the files left behind and the outcome. -/
def Proc.alone (fs : Fs) : Proc → Option (Fs × Outcome)
  | .convert j => (converter j.w j.fuel j.orders j.canCreate fs j.args).map fun x => (x.1, .converted x.2)
  | .opener w fuel file => some (fs, .opened (NewDb w (serverFormats w fuel) fs file))

/-- The files a process may write. -/
def Proc.writes : Proc → List Str
  | .convert j => j.outs
  | .opener _ _ _ => []

/-- The files a process may read or write. -/
def Proc.uses : Proc → List Str
  | .convert j => j.args.input :: (if j.args.line = [] then [] else [j.args.line]) ++ j.outs
  | .opener _ _ file => [file]

end Uip.Program
