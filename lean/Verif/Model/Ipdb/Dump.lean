import Verif.Model.Ipdb.Reader
import Verif.Model.Export
/-!
# `/repo/db/format/ipdb/dumper.go`
-/
namespace Uip.Ipdb
open Uip

/-- `/repo/db/format/ipdb/dumper.go:9-24` dump, its loop run for at most `fuel` rounds (`none`: still running). -/
def dump (fuel : Nat) (dec : Bytes → Option MetaData) (fmtDate : Int → Str) (data : Bytes)
    (ept : Option Export.Exporter) : Option (Res IpData) :=
  match newReaderFromBytes dec data with
  | .err e => some (.err e)
  | .panic => some .panic
  | .ok r => Export.BuildIPData fuel CommonFieldsMap r.md.fields ept (r.version fmtDate)
      (fun ip => r.findMap ip (gs "CN"))

end Uip.Ipdb
