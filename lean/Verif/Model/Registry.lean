import Verif.Model.GoStr
/-!
# The format registry (`/repo/db/format/formats.go`)

A creator is a Go func value; `none` is nil.
-/
namespace Uip

/-- `/repo/db/format/formats.go:31-35` the three maps. -/
structure Registry (D Q P : Type) where
  dumpFormats : GoMap (Option D) := []
  queryFormats : GoMap (Option Q) := []
  packFormats : GoMap (Option P) := []

namespace Registry
variable {D Q P : Type}

/-- `/repo/db/format/formats.go:7-9`. -/
def RegisterDumpFormat (r : Registry D Q P) (ext : Str) (create : Option D) : Registry D Q P :=
  { r with dumpFormats := mapSet r.dumpFormats ext create }

/-- `/repo/db/format/formats.go:11-13`. -/
def RegisterQueryFormat (r : Registry D Q P) (ext : Str) (create : Option Q) : Registry D Q P :=
  { r with queryFormats := mapSet r.queryFormats ext create }

/-- `/repo/db/format/formats.go:15-17`. -/
def RegisterPackFormat (r : Registry D Q P) (ext : Str) (create : Option P) : Registry D Q P :=
  { r with packFormats := mapSet r.packFormats ext create }

/-- `/repo/db/format/formats.go:19-21`; a missing key gives nil. -/
def GetDumpFormat (r : Registry D Q P) (ext : Str) : Option D := (mapGet r.dumpFormats ext).getD none

/-- `/repo/db/format/formats.go:23-25`. -/
def GetQueryFormat (r : Registry D Q P) (ext : Str) : Option Q := (mapGet r.queryFormats ext).getD none

/-- `/repo/db/format/formats.go:27-29`. -/
def GetPackFormat (r : Registry D Q P) (ext : Str) : Option P := (mapGet r.packFormats ext).getD none

end Registry

/-- Loop of Go's `path.Ext` (go 1.19 `path/path.go`) over the reversed path; `tail` is what was passed already. -/
def pathExtLoop : Str → Str → Str
  | [], _ => []
  | c :: cs, tail => if c = 0x2F then [] else if c = 0x2E then c :: tail else pathExtLoop cs (c :: tail)

/-- Go's `path.Ext`, used at `/repo/db/query/query.go:25`, `/repo/db/convert/dumper.go:20`, `/repo/db/convert/packer.go:21`. -/
def pathExt (p : Str) : Str := pathExtLoop p.reverse []

end Uip
