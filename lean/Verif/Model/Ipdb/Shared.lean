import Verif.Model.Ipdb.Reader
/-!
# The ipdb querier with its pointers

`/repo/db/format/ipdb/querier.go` hands out `*inf.IpInfo`: the same pointer for every query that ends on a
cached node, a fresh one otherwise. `Verif.Model.Ipdb.Reader` models answers as values; this file models the
same functions over a heap, so that what a caller does to an answer it holds is visible.

A pointer is an index into the heap; allocating appends. The garbage collector is left out: a cell is never
reused, which no program can observe.
-/
namespace Uip.Ipdb
open Uip

/-- The `inf.IpInfo` objects allocated so far. -/
abbrev Heap := List IpInfo

/-- `/repo/db/format/ipdb/querier.go:10-13`: `queryCache map[int]*inf.IpInfo` as pointers. -/
structure SQuerier where
  r : Reader
  queryCache : List (Nat × Nat)
  deriving DecidableEq, Repr

/-- `/repo/db/format/ipdb/querier.go:15-21` newQuerier. -/
def newSQuerier (dec : Bytes → Option MetaData) (data : Bytes) : Res SQuerier := do
  let r ← newReaderFromBytes dec data
  return { r := r, queryCache := [] }

/-- `q.queryCache[node]` (newest assignment first). -/
def ptrGet : List (Nat × Nat) → Nat → Option Nat
  | [], _ => none
  | (k, v) :: m, n => if k = n then some v else ptrGet m n

/-- `/repo/db/format/ipdb/querier.go:41-80` QueryInternal: (node, pointer, mask) and the heap afterwards. A
cached pointer is returned as it is; otherwise `ret := &inf.IpInfo{}` allocates. -/
def SQuerier.QueryInternal (q : SQuerier) (h : Heap) (ip : IP) (useCache : Bool) :
    Res ((Nat × Nat × Nat) × Heap) :=
  match q.r.find0 ip with
  | .panic => .panic
  | res =>
    let (node, body, mask) := match res with
      | .ok x => x
      | _ => (0, [], 0)
    match (if useCache then ptrGet q.queryCache node else none) with
    | some p => .ok ((node, p, mask), h)
    | none => match mapGet q.r.md.languages (gs "CN") with
      | none => .err .noSupportLanguage
      | some off => do
        let values ← q.r.decodeInfo body off
        return ((node, h.length, mask), h ++ [buildInfo q.r.md.fields values {}])

/-- `/repo/db/format/ipdb/querier.go:23-34` BuildCache. -/
def SQuerier.BuildCache (q : SQuerier) (h : Heap) : List IP → Res (SQuerier × Heap)
  | [] => .ok (q, h)
  | ip :: ips => match q.QueryInternal h ip false with
    | .panic => .panic
    | .err _ => q.BuildCache h ips
    | .ok ((node, p, _), h') => SQuerier.BuildCache { q with queryCache := (node, p) :: q.queryCache } h' ips

/-- `/repo/db/format/ipdb/querier.go:36-39` Query (`/repo/db/query/query.go:95-102` passes the pointer on). -/
def SQuerier.Query (q : SQuerier) (h : Heap) (ip : IP) : Res ((Nat × Nat) × Heap) := do
  let ((_, p, mask), h') ← q.QueryInternal h ip true
  return ((p, mask), h')

/-! ## Callers -/

/-- What a caller does: ask for an address, or assign to the answer of its `i`-th question (counted from 0). -/
inductive Ev where
  | ask (a : IP)
  | assign (i : Nat) (v : IpInfo)
  deriving DecidableEq, Repr

/-- The heap, and the pointers the callers got (`none`: the query failed). -/
structure Session where
  heap : Heap
  got : List (Option Nat)

/-- One step; assigning to an answer that was never given does nothing. -/
def SQuerier.step (q : SQuerier) (s : Session) : Ev → Session
  | .ask a => match q.Query s.heap a with
    | .ok ((p, _), h') => { heap := h', got := s.got ++ [some p] }
    | _ => { s with got := s.got ++ [none] }
  | .assign i v => match s.got[i]? with
    | some (some p) => { s with heap := s.heap.set p v }
    | _ => s

/-- A whole history. -/
def SQuerier.run (q : SQuerier) (s : Session) : List Ev → Session
  | [] => s
  | e :: es => q.run (q.step s e) es

/-- What a caller sees when it asks for `a` now: the object behind the pointer, and the mask. -/
def SQuerier.sees (q : SQuerier) (s : Session) (a : IP) : Res (IpInfo × Nat) := do
  let ((p, mask), h') ← q.Query s.heap a
  match h'[p]? with
  | some info => return (info, mask)
  | none => .panic

end Uip.Ipdb
