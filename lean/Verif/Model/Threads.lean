import Verif.Model.Ipdb.Shared
import Verif.Model.Awdb.Reader
import Verif.Model.Program
/-!
# Queries that run at the same time

`net/http` runs every request of `/repo/cmd/server/server.go` in a goroutine of its own, and a program may call `Query` from many.
Here a query is a sequence of steps on the memory the goroutines share, one for each access to a field of an `inf.IpInfo` object;
the steps of different goroutines are interleaved in any order.

Finding the record (`find0`, `LookupNetwork`, decoding) is one step: it only reads the bytes of the file, the metadata, the
14-bit table and the map of cached answers, none of which is written after the database was opened.  Allocation is one step.
-/
namespace Uip.Threads
open Uip

/-- The heap of `inf.IpInfo` objects, as in `Verif.Model.Ipdb.Shared`. -/
abbrev Heap := Ipdb.Heap

/-- `/repo/db/inf/db_inf.go:8-20`: the fields of an `inf.IpInfo`, in order. -/
inductive Attr where
  | country | district | province | city | asn | isp | continent | line
  deriving DecidableEq, Repr

/-- All fields, in the order `json.Marshal` reads them. -/
def Attr.all : List Attr := [.country, .district, .province, .city, .asn, .isp, .continent, .line]

/-- Reading a field. -/
def Attr.get : Attr → IpInfo → Str
  | .country, i => i.country
  | .district, i => i.district
  | .province, i => i.province
  | .city, i => i.city
  | .asn, i => i.asn
  | .isp, i => i.isp
  | .continent, i => i.continent
  | .line, i => i.line

/-- Writing a field. -/
def Attr.set : Attr → Str → IpInfo → IpInfo
  | .country, v, i => { i with country := v }
  | .district, v, i => { i with district := v }
  | .province, v, i => { i with province := v }
  | .city, v, i => { i with city := v }
  | .asn, v, i => { i with asn := v }
  | .isp, v, i => { i with isp := v }
  | .continent, v, i => { i with continent := v }
  | .line, v, i => { i with line := v }

/-- What finding the record leads to: a crash, an error, an object that is already there, or a new object with assignments to its
fields. -/
inductive Plan where
  | crash
  | fail (e : Err)
  | shared (p mask : Nat)
  | own (writes : List (Attr × Str)) (mask : Nat)
  deriving DecidableEq, Repr

/-- `/repo/db/format/ipdb/querier.go:60-77`: the field an ipdb column is assigned to. -/
def attrOf (f : Str) : Option Attr :=
  if f = Ipdb.FieldCountryName then some .country
  else if f = Ipdb.FieldRegionName then some .province
  else if f = Ipdb.FieldCityName then some .city
  else if f = Ipdb.FieldISPDomain then some .isp
  else if f = fAsn then some .asn
  else if f = Ipdb.FieldContinentCode then some .continent
  else if f = fLine then some .line
  else if f = fDistrict then some .district
  else none

/-- `/repo/db/format/ipdb/querier.go:59-78`: the assignments of the loop. -/
def writesOf : List Str → List Str → List (Attr × Str)
  | f :: fs, v :: vs => match attrOf f with
    | some k => (k, v) :: writesOf fs vs
    | none => writesOf fs vs
  | _, _ => []

/-- `/repo/db/format/ipdb/querier.go:41-58` QueryInternal with the cache, up to the allocation. -/
def ipdbPlan (q : Ipdb.SQuerier) (ip : IP) : Plan :=
  match q.r.find0 ip with
  | .panic => .crash
  | res =>
    let (node, body, mask) := match res with
      | .ok x => x
      | _ => (0, [], 0)
    match Ipdb.ptrGet q.queryCache node with
    | some p => .shared p mask
    | none => match mapGet q.r.md.languages (gs "CN") with
      | none => .fail .noSupportLanguage
      | some off => match q.r.decodeInfo body off with
        | .panic => .crash
        | .err e => .fail e
        | .ok values => .own (writesOf q.r.md.fields values) mask

/-- `/repo/db/format/awdb/querier.go:35-50` Query: the composite literal assigns the fields of a new object. -/
def awdbPlan (r : Awdb.Reader) (ip : IP) : Plan :=
  match r.Find ip with
  | .panic => .crash
  | .err e => .fail e
  | .ok (cidr, info) =>
    .own [(.country, Awdb.strAt info (gs "country")), (.province, Awdb.strAt info (gs "province")), (.city, Awdb.strAt info (gs "city")),
      (.isp, Awdb.strAt info (gs "isp")), (.asn, Awdb.strAt info (gs "asnumber")), (.continent, Awdb.strAt info (gs "continent")),
      (.line, Awdb.strAt info (gs "line"))] (maskSize cidr.mask).1

/-- A goroutine that asks for one address and reads the answer: not begun; assigning the fields of its new object; reading the
fields of the object it got (into `got`); done.  A panic ends the goroutine (`net/http` recovers it). -/
inductive Thread where
  | waiting (a : IP)
  | filling (p : Nat) (todo : List (Attr × Str)) (mask : Nat)
  | reading (p : Nat) (todo : List Attr) (got : IpInfo) (mask : Nat)
  | finished (r : Res (IpInfo × Nat))

/-- One step of a goroutine. -/
def Thread.step (plan : IP → Plan) (h : Heap) : Thread → Thread × Heap
  | .waiting a => match plan a with
    | .crash => (.finished .panic, h)
    | .fail e => (.finished (.err e), h)
    | .shared p m => (.reading p Attr.all {} m, h)
    | .own w m => (.filling h.length w m, h ++ [{}])
  | .filling p [] m => (.reading p Attr.all {} m, h)
  | .filling p ((k, v) :: w) m => (.filling p w m, h.modify p (k.set v))
  | .reading _ [] got m => (.finished (.ok (got, m)), h)
  | .reading p (k :: ks) got m => match h[p]? with
    | some i => (.reading p ks (k.set (k.get i) got) m, h)
    | none => (.finished .panic, h)
  | .finished r => (.finished r, h)

/-- All goroutines and the memory they share. -/
structure Machine where
  heap : Heap
  threads : List Thread

/-- The scheduler runs goroutine `i` for one step. -/
def Machine.step (plan : IP → Plan) (m : Machine) (i : Nat) : Machine :=
  match m.threads[i]? with
  | none => m
  | some t => let r := t.step plan m.heap; ⟨r.2, m.threads.set i r.1⟩

/-- A whole schedule. -/
def Machine.run (plan : IP → Plan) (m : Machine) : List Nat → Machine
  | [] => m
  | i :: is => (m.step plan i).run plan is

/-- Goroutines that ask for the addresses. -/
def Machine.start (h : Heap) (asks : List IP) : Machine := ⟨h, asks.map .waiting⟩

/-- The access to a field a goroutine makes in its next step: the object, the field and whether it is written. -/
def Thread.next : Thread → Option (Nat × Attr × Bool)
  | .filling p ((k, _) :: _) _ => some (p, k, true)
  | .reading p (k :: _) _ _ => some (p, k, false)
  | _ => none

end Uip.Threads
