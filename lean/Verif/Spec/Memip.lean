import Verif.Spec.Info
import Verif.Spec.Rule
import Verif.Spec.Operate
/-!
# Specification vocabulary: the `.memip` text

A line is `start end city-province-district-isp-country-continent`.
-/
namespace Uip.Spec
open Uip

/-- 默认 ("default"): what is shown for a value that is not known. -/
def unknown : Str := gs "默认"

/-- What is shown for the named field of a record: 默认 when it is missing, empty or starts with 保留 ("reserved"). -/
def shown (fields values : List Str) (f : Str) : Str :=
  match valueOf fields values f with
  | none => unknown
  | some v => if v = [] ∨ gs "保留" <+: v then unknown else v

/-- The view of a record: city, province, district, ISP, country, continent. -/
def viewOf (fields values : List Str) : List Str :=
  let s := shown fields values
  [ s (gs "city"),
    s (gs "province"),
    if s (gs "province") ∈ [gs "香港", gs "澳门", gs "台湾"] then unknown else s (gs "district"),
    if s (gs "isp") ∈ [gs "电信", gs "联通", gs "移动", unknown] then s (gs "isp") else gs "其他",
    s (gs "country"),
    spellContinent (s (gs "continent")) ]

/-- The six fields of a view. -/
def viewFields : List Str := [gs "city", gs "province", gs "district", gs "isp", gs "country", gs "continent"]

/-- Addresses from `lo` up to but not including `hi`, shown as `view`. -/
structure Run where
  lo : Nat
  hi : Nat
  view : List Str
  deriving DecidableEq, Repr

/-- A row begins inside or right after the run and differs from it at most in the city. -/
def Run.takes (cur r : Run) : Prop := cur.view.tail = r.view.tail ∧ cur.lo ≤ r.lo ∧ r.lo ≤ cur.hi % 2 ^ 128

instance (a b) : Decidable (Run.takes a b) := by unfold Run.takes; infer_instance

/-- Neighbouring rows joined into runs; a run is shown as its first row. -/
def joinRuns : Run → List Run → List Run
  | cur, [] => [cur]
  | cur, r :: rs => if cur.takes r then joinRuns ⟨cur.lo, max cur.hi r.hi, cur.view⟩ rs else cur :: joinRuns r rs

/-- A row as a run. -/
def rowRun (fields : List Str) (x : IpRaw) : Run := ⟨netLo x.cidr, netEnd x.cidr, viewOf fields x.values⟩

/-- The runs of a data set. -/
def runsOf (d : IpData) : List Run :=
  match d.ips with
  | [] => []
  | x :: xs => joinRuns (rowRun d.fields x) (xs.map (rowRun d.fields))

/-- The view an address gets from the runs, scanned from the top. -/
def firstRun (rs : List Run) (x : Nat) : Option (List Str) :=
  (rs.find? fun r => decide (r.lo ≤ x ∧ x < r.hi)).map (·.view)

/-- The view an address gets from the runs, scanned from the bottom. -/
def lastRun (rs : List Run) (x : Nat) : Option (List Str) := firstRun rs.reverse x

/-- The IPv4 addresses as numbers. -/
def v4Lo : Nat := 0xffff * 2 ^ 32
def v4End : Nat := 0x10000 * 2 ^ 32

/-- A network of IPv4 addresses. -/
def V4Net (n : IPNet) : Prop := v4Lo ≤ netLo n ∧ netEnd n ≤ v4End

/-- A network whose first and last addresses are not IPv4 addresses. -/
def V6Net (n : IPNet) : Prop :=
  (netLo n < v4Lo ∨ v4End ≤ netLo n) ∧ (netEnd n ≤ v4Lo ∨ v4End < netEnd n)

instance (n) : Decidable (V4Net n) := by unfold V4Net; infer_instance
instance (n) : Decidable (V6Net n) := by unfold V6Net; infer_instance

/-- Rows that can be written as lines of a `.memip` text: at least one, shown fields without space, dash or line break. -/
structure MemOK (d : IpData) : Prop where
  ne : d.ips ≠ []
  wf : ∀ r ∈ d.ips, WFNet r.cidr
  len : ∀ r ∈ d.ips, r.values.length = d.fields.length
  values : ∀ r ∈ d.ips, ∀ v ∈ viewOf d.fields r.values, Avoids [0x20, 0x2D, 0x0A, 0x0D] v
  short : ∀ r ∈ d.ips, (joinByte 0x2D (viewOf d.fields r.values)).length + 100 < 65536

instance (d : IpData) : Decidable (MemOK d) :=
  decidable_of_iff (d.ips ≠ [] ∧ (∀ r ∈ d.ips, WFNet r.cidr) ∧ (∀ r ∈ d.ips, r.values.length = d.fields.length) ∧
      (∀ r ∈ d.ips, ∀ v ∈ viewOf d.fields r.values, Avoids [0x20, 0x2D, 0x0A, 0x0D] v) ∧
      (∀ r ∈ d.ips, (joinByte 0x2D (viewOf d.fields r.values)).length + 100 < 65536))
    ⟨fun h => ⟨h.1, h.2.1, h.2.2.1, h.2.2.2.1, h.2.2.2.2⟩, fun h => ⟨h.1, h.2, h.3, h.4, h.5⟩⟩

end Uip.Spec
