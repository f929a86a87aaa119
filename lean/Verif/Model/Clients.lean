import Verif.Model.Program
import Verif.Model.Ipdb.Java
import Verif.Model.Ipdb.Rust
/-!
# Opening files by name and the command line programs
(`/repo/java/src/main/java/qiniu/uip/{db/Query,db/format/Formats,util/File}.java`, `/repo/rust/src/{query,bin/query}.rs`,
`/repo/cmd/{simple,server}/main.go`)

What is printed is modelled by its parts, not as text.
-/

namespace Uip.Java
open Uip Uip.Ipdb

/-- `/repo/java/src/main/java/qiniu/uip/db/format/ipdb/Ipdb.java:47-53` Builder: makes a reader of bytes. -/
abbrev Builder := Bytes → Res JReader

/-- `/repo/java/src/main/java/qiniu/uip/db/format/Formats.java:12-14` registerQueryFormat. -/
def registerQueryFormat (m : GoMap Builder) (ext : Str) (q : Builder) : GoMap Builder := mapSet m ext q

/-- `/repo/java/src/main/java/qiniu/uip/db/format/Formats.java:16-18` getQueryFormat; `none` is null. -/
def getQueryFormat (m : GoMap Builder) (ext : Str) : Option Builder := mapGet m ext

/-- `/repo/java/src/main/java/qiniu/uip/db/Query.java:15-17` the static initialiser. -/
def formats (dec : Bytes → Option MetaData) : GoMap Builder := registerQueryFormat [] (gs ".ipdb") (Reader dec)

/-- `String.lastIndexOf` (Java std) of one ASCII character, -1 if absent (byte offsets). -/
def lastIndexOf (c : UInt8) : Str → Int
  | [] => -1
  | x :: s => if 0 ≤ lastIndexOf c s then lastIndexOf c s + 1 else if x = c then 0 else -1

/-- `String.substring(begin)` (Java std): throws unless `0 ≤ begin ≤ length`. -/
def substring (s : Str) (i : Int) : Res Str := if 0 ≤ i ∧ i ≤ s.length then .ok (s.drop i.toNat) else .panic

/-- Loop of `/repo/java/src/main/java/qiniu/uip/util/File.java:11-21` readAll over what the calls of `read` return. -/
def readAll : List Bytes → Bytes → Bytes
  | [], out => out
  | b :: bs, out => readAll bs (out ++ b)

/-- `/repo/java/src/main/java/qiniu/uip/db/Query.java:31-46` create(byte[], String), any format. -/
def createFormat (dec : Bytes → Option MetaData) (utf8 : Bytes → Str) (ips : List Bytes) (data : Bytes) (format : Str) : Res JReader :=
  match getQueryFormat (formats dec) format with
  | none => .err .unsupportedFormat
  | some build => do
    let r ← build data
    if hasIpV4 (version (fun _ => []) r) then return r.buildCache utf8 ips else return r

/-- `/repo/java/src/main/java/qiniu/uip/db/Query.java:25-29` create(String); `open_` gives what successive calls of `read`
return for a file (`none`: it cannot be opened). -/
def createFile (dec : Bytes → Option MetaData) (utf8 : Bytes → Str) (ips : List Bytes) (open_ : Str → Option (List Bytes))
    (filename : Str) : Res JReader := do
  let ext ← substring filename (lastIndexOf 0x2E filename)
  match open_ filename with
  | none => .err (.other "read file")
  | some chunks => createFormat dec utf8 ips (readAll chunks []) ext

end Uip.Java

namespace Uip.Rust
open Uip Uip.Ipdb

/-- `/repo/rust/src/query.rs:18-22` from_bytes, with `/repo/rust/src/formats/ipdb.rs:20-25` new. -/
def fromBytes (dec : Bytes → Option MetaData) (b : Bytes) : Res RReader := Reader dec b

/-- `/repo/rust/src/query.rs:11-16` from_file. -/
def fromFile (dec : Bytes → Option MetaData) (fs : Str → Option Bytes) (path : Str) : Res RReader :=
  match fs path with
  | none => .err (.other "read file")
  | some b => fromBytes dec b

/-- What `/repo/rust/src/bin/query.rs:3-28` prints at its end. -/
inductive RShown where
  | usage
  | info (ip : Str) (i : IpInfo)
  | queryError (ip : Str) (e : Err)
  | openError (e : Err)
  deriving DecidableEq

/-- `/repo/rust/src/bin/query.rs:3-28` main; `args` begins with the name of the program. -/
def main (dec : Bytes → Option MetaData) (parse : Str → Option Bytes) (utf8 : Bytes → Str) (fs : Str → Option Bytes)
    (args : List Str) : Res RShown :=
  match args with
  | [] => .panic
  | _ :: file :: ip :: _ => match fromFile dec fs file with
    | .ok q => match queryStr parse utf8 q ip with
      | .ok i => .ok (.info ip i)
      | .err e => .ok (.queryError ip e)
      | .panic => .panic
    | .err e => .ok (.openError e)
    | .panic => .panic
  | _ => .ok .usage

end Uip.Rust

namespace Uip.Program
open Uip Uip.Ipdb

/-- `/repo/cmd/server/server.go:14-29` the two patterns: `/version` takes that path, `/` every other one.  (Paths that
net/http answers itself, with a redirect to a cleaned path, are left out.) -/
def serve (w : World) (enc : IpInfo → Bytes) (encV : VersionInfo → Bytes) (q : OpenDb) (path : Str) : Res Reply :=
  if path = gs "/version" then .ok ⟨200, encV (q.versionInfo w)⟩ else serveQuery enc q path

/-- What `/repo/cmd/server/main.go:12-27` does: log an error and end, or answer requests from then on. -/
inductive Server where
  | failed (e : Err)
  | serving (q : OpenDb)

/-- `/repo/cmd/server/main.go:12-27` main; `args` are the arguments after the name of the program.  Failing to listen is left
out. -/
def serverMain (w : World) (fuel : Nat) (fs : Fs) : List Str → Res Server
  | file :: _addr :: _ => match NewDb w (serverFormats w fuel) fs file with
    | .ok q => .ok (.serving q)
    | .err e => .ok (.failed e)
    | .panic => .panic
  | _ => .panic

/-- `/repo/cmd/simple/main.go:13-33` main; `args` are the arguments after the name of the program. -/
def simpleMain (w : World) (fuel : Nat) (fs : Fs) : List Str → Res Shown
  | file :: ip :: _ => simple w fuel fs file ip
  | _ => .panic

end Uip.Program
