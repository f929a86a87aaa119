import Verif.Model.Inf
/-!
# `/repo/db/query/query.go` over the `inf.Query` interface (`/repo/db/inf/db_inf.go:24-28`)
-/
namespace Uip

/-- An opened database, as far as queries go: `inf.Query.Query`. -/
abbrev QueryFn := IP → Res (IpInfo × Nat)

/-- `/repo/db/query/query.go:95-102` Db.Query. -/
def Db.Query (q : QueryFn) (ip : IP) : Res (IpInfo × Nat) := q ip

/-- `/repo/db/query/query.go:42-48` Db.QueryStr; `parseIP` is `net.ParseIP` (`none` = nil). -/
def Db.QueryStr (parseIP : Str → Option IP) (q : QueryFn) (s : Str) : Res (IpInfo × Nat) :=
  match parseIP s with
  | none => .err (.other "invalid ip")
  | some ip => Db.Query q ip

/-- `/repo/db/query/query.go:50-53` Db.QueryU32. -/
def Db.QueryU32 (q : QueryFn) (i : UInt32) : Res (IpInfo × Nat) := Db.Query q (Uint32ToIPv4 i)

/-- One probe of `/repo/db/query/query.go:55-93`. -/
def Db.check (q : QueryFn) (ip : IP) (country : Str) : Res Unit := do
  let (info, _) ← Db.Query q ip
  if info.country ≠ country then .err .checkFailed else .ok ()

/-- `/repo/db/query/query.go:55-73` CheckV4 (the two literals parsed). -/
def Db.CheckV4 (q : QueryFn) : Res Unit := do
  Db.check q (goIPv4 8 8 8 8) (gs "美国")
  Db.check q (goIPv4 119 29 29 29) (gs "中国")

/-- `/repo/db/query/query.go:75-93` CheckV6 (the two literals parsed). -/
def Db.CheckV6 (q : QueryFn) : Res Unit := do
  Db.check q [0x20, 0x01, 0x48, 0x60, 0x48, 0x60, 0, 0, 0, 0, 0, 0, 0, 0, 0x88, 0x88] (gs "美国")
  Db.check q [0x26, 0x06, 0x47, 0, 0x47, 0, 0, 0, 0, 0, 0, 0, 0, 0, 0x11, 0x11] (gs "美国")

end Uip
