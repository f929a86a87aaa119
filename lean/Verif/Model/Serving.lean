import Verif.Model.Threads
import Verif.Model.Clients
/-!
# The HTTP server with many requests at a time

`net/http` (Go std) runs the handler of every request in a goroutine of its own; a handler that panics has its connection closed
and the server goes on.  Requests arrive at any time, and the goroutines of `Model/Threads.lean` run interleaved in any way.
-/
namespace Uip.Program
open Uip Uip.Threads

/-- The goroutine of a request: it has replied (`.panic`: its connection is closed without a reply), or it asks the database. -/
inductive Task where
  | replied (r : Res Reply)
  | asking (t : Thread)

/-- `/repo/cmd/server/server.go:16-22`: choosing the handler and, for `/`, parsing the address (`/repo/db/query/query.go:42-48`). -/
def Task.begin (w : World) (encV : VersionInfo → Bytes) (q : OpenDb) (path : Str) : Task :=
  if path = gs "/version" then .replied (.ok ⟨200, encV (q.versionInfo w)⟩)
  else match path with
    | [] => .replied .panic
    | _ :: ip => match ParseIP ip with
      | none => .replied (.ok ⟨404, []⟩)
      | some a => .asking (.waiting a)

/-- `/repo/cmd/server/server.go:23-28`: the reply made of the answer. -/
def replyOf (enc : IpInfo → Bytes) : Res (IpInfo × Nat) → Res Reply
  | .ok (i, _) => .ok ⟨200, enc i⟩
  | .err _ => .ok ⟨404, []⟩
  | .panic => .panic

/-- One step of the goroutine of a request. -/
def Task.step (plan : IP → Plan) (enc : IpInfo → Bytes) (h : Threads.Heap) : Task → Task × Threads.Heap
  | .replied r => (.replied r, h)
  | .asking (.finished r) => (.replied (replyOf enc r), h)
  | .asking t => (.asking (t.step plan h).1, (t.step plan h).2)

/-- What happens to the server: a request arrives, or the goroutine of the `i`-th request runs for one step. -/
inductive Event where
  | request (path : Str)
  | run (i : Nat)
  deriving DecidableEq

/-- The memory and the goroutines of all requests so far, in the order of their arrival. -/
structure Serving where
  heap : Threads.Heap
  tasks : List Task

/-- One event. -/
def Serving.step (w : World) (enc : IpInfo → Bytes) (encV : VersionInfo → Bytes) (q : OpenDb) (plan : IP → Plan) (s : Serving) :
    Event → Serving
  | .request path => ⟨s.heap, s.tasks ++ [Task.begin w encV q path]⟩
  | .run i => match s.tasks[i]? with
    | none => s
    | some t => ⟨(t.step plan enc s.heap).2, s.tasks.set i (t.step plan enc s.heap).1⟩

/-- A whole history. -/
def Serving.after (w : World) (enc : IpInfo → Bytes) (encV : VersionInfo → Bytes) (q : OpenDb) (plan : IP → Plan) :
    Serving → List Event → Serving
  | s, [] => s
  | s, e :: es => (s.step w enc encV q plan e).after w enc encV q plan es

/-- The memory access a task makes in its next step. -/
def Task.next : Task → Option (Nat × Attr × Bool)
  | .asking t => t.next
  | .replied _ => none

end Uip.Program
