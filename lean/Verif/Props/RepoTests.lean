import Verif.Model.IpNetText
import Verif.Model.Export
/-!
# The assertions of the repository's own tests, on the model

Not proofs of properties: a check that the model computes what the Go code is asserted to compute in
`/repo/ipnet/range_test.go`, `/repo/ipnet/ipnet_test.go` and `/repo/db/field/export/export_test.go`.
(`/repo/db/query/query_test.go` and the Java tests need database files that are not part of the repository.)
-/
namespace Uip.RepoTests
open Uip

/-- `net.ParseCIDR` of a text the tests know to be good. -/
def cidr (s : String) : IPNet := (ParseCIDR (gs s)).getD ⟨[], []⟩
/-- `net.ParseIP`, for such a text. -/
def ip (s : String) : IP := (ParseIP (gs s)).getD []
def ip4 (s : String) : IP := ((ParseIP (gs s)).bind To4).getD []
/-- `NewRange` of such a text. -/
def range (s : String) : Range := match NewRange (cidr s) with | .ok r => r | _ => ⟨[], []⟩
/-- `r.Start.String()`, `r.End.String()`. -/
def shown (r : Range) : Str × Str := (IPString r.start, IPString r.end_)
/-- `ipr.JoinIPNet` of such a text. -/
def joined (r : Range) (s : String) : Range × Bool := match r.JoinIPNet (cidr s) with | .ok x => x | _ => (r, false)
/-- `Uint32ToIPv4(IPv4StrToUint32(s)).String()`. -/
def thereAndBack (s : String) : Option Str := match IPv4StrToUint32 (gs s) with | .ok n => some (IPString (Uint32ToIPv4 n)) | _ => none
/-- The networks of a range, as texts. -/
def nets (r : Range) : Option (List Str) := match r.IPNets with | some (.ok l) => some (l.map IPNetString) | _ => none

/-- `/repo/ipnet/range_test.go:27-53`: a range of one address, joined, and a join that is refused. -/
example :
    shown (range "0.0.0.0/32") = (gs "0.0.0.0", gs "0.0.0.0") ∧
    ((range "0.0.0.0/32").Join (range "0.0.0.1/32")).2 = true ∧
    IPString ((range "0.0.0.0/32").Join (range "0.0.0.1/32")).1.end_ = gs "0.0.0.1" ∧
    (((range "0.0.0.0/32").Join (range "0.0.0.1/32")).1.Join (range "1.0.0.0/32")).2 = false ∧
    IPString (((range "0.0.0.0/32").Join (range "0.0.0.1/32")).1.Join (range "1.0.0.0/32")).1.end_ = gs "0.0.0.1" := by
  refine ⟨?_, ?_, ?_, ?_, ?_⟩ <;> decide +kernel

/-- `/repo/ipnet/range_test.go:55-67`: the networks of ranges; the ends put in are 4-byte addresses. -/
example :
    nets ((range "0.0.0.0/32").Join (range "0.0.0.1/32")).1 = some [gs "0.0.0.0/31"] ∧
    nets { ((range "0.0.0.0/32").Join (range "0.0.0.1/32")).1 with end_ := ip4 "0.0.0.255" } = some [gs "0.0.0.0/24"] ∧
    (nets { ((range "0.0.0.0/32").Join (range "0.0.0.1/32")).1 with end_ := ip4 "0.0.4.255" }).map List.length = some 2 := by
  refine ⟨?_, ?_, ?_⟩ <;> decide +kernel

/-- `/repo/ipnet/range_test.go:69-84`: joining networks. -/
example :
    shown (range "58.82.200.0/23") = (gs "58.82.200.0", gs "58.82.201.255") ∧
    (joined (range "58.82.200.0/23") "58.82.203.0/21").2 = true ∧
    IPString (joined (range "58.82.200.0/23") "58.82.203.0/21").1.end_ = gs "58.82.207.255" ∧
    (joined (joined (range "58.82.200.0/23") "58.82.203.0/21").1 "58.82.203.0/20").2 = false := by
  refine ⟨?_, ?_, ?_, ?_⟩ <;> decide +kernel

/-- `/repo/ipnet/range_test.go:87-101` TestRange2. -/
example :
    nets (joined (range "0.0.0.0/32") "0.0.0.1/32").1 = some [gs "0.0.0.0/31"] ∧
    nets { (joined (range "0.0.0.0/32") "0.0.0.1/32").1 with end_ := ip "255.255.255.255" } = some [gs "0.0.0.0/0"] := by
  refine ⟨?_, ?_⟩ <;> decide +kernel

/-- `/repo/ipnet/range_test.go:103-156` TestRange_CommonRange. -/
example :
    shown (range "58.82.203.0/21") = (gs "58.82.200.0", gs "58.82.207.255") ∧
    shown (range "58.82.201.0/24") = (gs "58.82.201.0", gs "58.82.201.255") ∧
    ((range "58.82.203.0/21").CommonRange (range "58.82.203.0/21").start (range "58.82.200.0/23")).2 = true ∧
    shown ((range "58.82.203.0/21").CommonRange (range "58.82.203.0/21").start (range "58.82.200.0/23")).1 =
      (gs "58.82.200.0", gs "58.82.201.255") ∧
    ((range "58.82.200.0/23").CommonRange (range "58.82.200.0/23").start (range "58.82.201.0/24")).2 = false ∧
    ((range "58.82.200.0/23").CommonRange (range "58.82.201.0/24").start (range "58.82.201.0/24")).2 = true ∧
    shown ((range "58.82.200.0/23").CommonRange (range "58.82.201.0/24").start (range "58.82.201.0/24")).1 =
      (gs "58.82.201.0", gs "58.82.201.255") ∧
    ((range "58.82.201.0/24").CommonRange (range "58.82.201.0/24").start (range "58.82.208.0/24")).2 = false := by
  refine ⟨?_, ?_, ?_, ?_, ?_, ?_, ?_, ?_⟩ <;> decide +kernel

/-- `/repo/ipnet/range_test.go:158-167` TestPrefixSameLength. -/
example : PrefixSameLength (ip4 "0.0.0.1") (ip4 "0.0.0.0") = 31 ∧ PrefixSameLength (ip4 "1.0.0.1") (ip4 "2.0.0.0") = 6 := by
  decide +kernel

/-- `/repo/ipnet/ipnet_test.go:27-68`; that `IPv4ToUint32` undoes `Uint32ToIPv4` for every number is `C01`. -/
example :
    MaskLess (cidr "0.0.0.0/16") (cidr "0.0.0.0/24") = false ∧
    IPString (Uint32ToIPv4 128) = gs "0.0.0.128" ∧
    thereAndBack "1.1.1.1" = some (gs "1.1.1.1") ∧
    IPv4StrToUint32 (gs "fake") = .ok 0 ∧
    Contains (ip "1.1.0.0") (ip "1.1.0.255") (ip "1.1.0.1") = true ∧
    Contains (ip "1.1.0.0") (ip "1.1.0.255") (ip "1.1.0.0") = true ∧
    Contains (ip "1.1.0.0") (ip "1.1.0.255") (ip "1.1.0.255") = true ∧
    Contains (ip "1.1.0.0") (ip "1.1.0.255") (ip "1.1.1.0") = false ∧
    Contains (ip "1.1.0.255") (ip "1.1.0.255") (ip "1.1.0.255") = true := by
  refine ⟨?_, ?_, ?_, ?_, ?_, ?_, ?_, ?_, ?_⟩ <;> decide +kernel

/-- The map of columns of `/repo/db/field/export/export_test.go:16-23`. -/
def testMap : GoMap Str := [(gs "country", gs "c"), (gs "province", gs "p"), (gs "city", gs "ct"), (gs "isp", gs "i"), (gs "asn", gs "a"),
  (gs "latitude", gs "l")]
def data1 : GoMap Str := [(gs "c", gs "中国"), (gs "p", gs "浙江"), (gs "ct", gs "杭州"), (gs "i", gs "电信"), (gs "a", gs "123"), (gs "cc", gs "ccc")]
def data2 : GoMap Str := [(gs "c", gs "日本"), (gs "p", gs "东京都"), (gs "ct", gs "品川区"), (gs "i", gs "WIDE Project"), (gs "a", gs "123"), (gs "bb", gs "bbb")]

/-- `/repo/db/field/export/export_test.go:12-50` calls a method `Select` of exporters, and expects the five columns the default rule
had; at this commit `Select` is a function of a map and the rule has seven columns, so the test does not compile.  With it, and the rule
of five columns, the model gives the asserted values; with the rule of the code the further columns are empty. -/
example :
    ((Export.ParseRule (gs "country,province,city,isp,asn|country=!中国:country")).map fun e =>
      (e.fields, e.Export (Export.Select testMap e.fields) data1, e.Export (Export.Select testMap e.fields) data2)) =
      some ([gs "country", gs "province", gs "city", gs "isp", gs "asn"], .ok [gs "中国", gs "浙江", gs "杭州", gs "电信", gs "123"],
        .ok [gs "日本", [], [], [], []]) ∧
    ((Export.ParseRule Export.DefaultRule).map fun e =>
      (e.Export (Export.Select testMap e.fields) data1, e.Export (Export.Select testMap e.fields) data2)) =
      some (.ok [gs "中国", gs "浙江", gs "杭州", gs "电信", gs "123", [], []], .ok [gs "日本", [], [], [], [], [], []]) := by
  refine ⟨?_, ?_⟩ <;> decide +kernel

end Uip.RepoTests
