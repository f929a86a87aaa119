import Verif.Model.Ipdb.Java
/-!
# The Java reader with its objects

`/repo/java/src/main/java/qiniu/uip/db/format/ipdb/Reader.java` puts the `IpInfo` objects it makes while warming
up into `resultCache` and hands the same object out for every later query that ends on that node; the fields of
`IpInfo` are public (`/repo/java/src/main/java/qiniu/uip/db/IpInfo.java:3-11`). `Verif.Model.Ipdb.Java` models
answers as values; this file models the same functions over a heap, so that what a caller does to an answer it
holds is visible.

A reference is an index into the heap; `new IpInfo()` appends. The garbage collector is left out: a cell is never
reused, which no program can observe. An object under construction is appended when it is finished: the
constructor loop gives no one else a reference to it.
-/
namespace Uip.Java
open Uip Uip.Ipdb

/-- The `IpInfo` objects made so far. -/
abbrev JHeap := List JInfo

/-- `Reader.java:14-24` Reader, `resultCache` holding references (`none` is null); the field of `r` is not
used. -/
structure SReader where
  r : JReader
  cache : Option (List (Int × Nat))
  deriving DecidableEq, Repr

/-- `HashMap.get` (newest `put` first). -/
def refGet : List (Int × Nat) → Int → Option Nat
  | [], _ => none
  | (k, v) :: m, n => if k = n then some v else refGet m n

/-- `Reader.java:105-174` query up to the `put`: the node, the reference, and the heap afterwards. -/
def SReader.query (utf8 : Bytes → Str) (q : SReader) (h : JHeap) (ip : Bytes) (cache : Bool) :
    Res ((Int × Nat) × JHeap) := do
  let node ← q.r.find0 ip
  match (if cache then (q.cache.bind fun c => refGet c node) else none) with
  | some p => return ((node, p), h)
  | none =>
    match ← q.r.resolveNode utf8 node (gs "CN") with
    | none => .err .ipFormat
    | some parts =>
      let info ← buildInfo q.r.md.fields parts {}
      return ((node, h.length), h ++ [info])

/-- Loop of `Reader.java:96-102` with the `put` of 170-172: every exception is caught. -/
def SReader.warmLoop (utf8 : Bytes → Str) (q : SReader) : List Bytes → List (Int × Nat) → JHeap →
    List (Int × Nat) × JHeap
  | [], c, h => (c, h)
  | ip :: ips, c, h =>
    match q.query utf8 h ip false with
    | .ok ((node, p), h') => q.warmLoop utf8 ips ((node, p) :: c) h'
    | _ => q.warmLoop utf8 ips c h

/-- `Reader.java:94-103` buildCache. -/
def SReader.buildCache (utf8 : Bytes → Str) (q : SReader) (h : JHeap) (ips : List Bytes) : SReader × JHeap :=
  let (c, h') := q.warmLoop utf8 ips [] h
  ({ q with cache := some c }, h')

/-- `/repo/java/src/main/java/qiniu/uip/db/Query.java:31-46` create(data, ".ipdb"), with the objects that exist
afterwards. -/
def SReader.create (dec : Bytes → Option MetaData) (utf8 : Bytes → Str) (ips : List Bytes) (data : Bytes) :
    Res (SReader × JHeap) := do
  let r ← Reader dec data
  let q : SReader := { r := r, cache := none }
  if hasIpV4 (version (fun _ => []) r) then return q.buildCache utf8 [] ips else return (q, [])

/-- `/repo/java/src/main/java/qiniu/uip/db/Query.java:71-73` with `format/ipdb/Ipdb.java:20-23`: query(byte[]),
the reference it returns and the heap afterwards. -/
def SReader.ask (utf8 : Bytes → Str) (q : SReader) (h : JHeap) (ip : Bytes) : Res (Nat × JHeap) := do
  let ((_, p), h') ← q.query utf8 h ip true
  return (p, h')

/-! ## Callers -/

/-- What a caller does: ask for an address, or assign to the fields of the answer of its `i`-th question (counted
from 0). -/
inductive JEv where
  | ask (a : Bytes)
  | assign (i : Nat) (v : JInfo)
  deriving DecidableEq, Repr

/-- The heap, and the references the callers got (`none`: the query threw). -/
structure JSession where
  heap : JHeap
  got : List (Option Nat)
  deriving DecidableEq, Repr

/-- One step; assigning to an answer that was never given does nothing. -/
def SReader.step (utf8 : Bytes → Str) (q : SReader) (s : JSession) : JEv → JSession
  | .ask a => match q.ask utf8 s.heap a with
    | .ok (p, h') => { heap := h', got := s.got ++ [some p] }
    | _ => { s with got := s.got ++ [none] }
  | .assign i v => match s.got[i]? with
    | some (some p) => { s with heap := s.heap.set p v }
    | _ => s

/-- A whole history. -/
def SReader.run (utf8 : Bytes → Str) (q : SReader) (s : JSession) : List JEv → JSession
  | [] => s
  | e :: es => q.run utf8 (q.step utf8 s e) es

/-- What a caller sees when it asks for `a` now: the object behind the reference. -/
def SReader.sees (utf8 : Bytes → Str) (q : SReader) (s : JSession) (a : Bytes) : Res JInfo := do
  let (p, h') ← q.ask utf8 s.heap a
  match h'[p]? with
  | some info => return info
  | none => .panic

end Uip.Java
