import Verif.Model.GoScan
import Verif.Model.Tables
import Verif.Model.Inf
/-!
# `/repo/db/field/data/load.go`
-/
namespace Uip

/-- Body of the loop of `/repo/db/field/data/load.go:15-25`. -/
def parseStep (m : GoMap Str) (line : Str) : GoMap Str :=
  if line = [] then m
  else match cutByte 0x09 line with
    | none => m
    | some (k, v) => mapSet m k v

/-- `/repo/db/field/data/load.go:12-31` parseData; a scanner error gives the nil map (reads as empty). -/
def parseData (data : Str) : GoMap Str :=
  if (scanLines data).2 then [] else (scanLines data).1.foldl parseStep []

/-- `/repo/db/field/data/load.go:34-36` Load. -/
def Load (nm : GoMap (GoMap Str)) (key data : Str) : GoMap (GoMap Str) := mapSet nm key (parseData data)

/-- `/repo/db/field/data/load.go:38-46` LoadDefault on the initially empty NormalizedMap. -/
def NormalizedMap : GoMap (GoMap Str) :=
  Load (Load (Load [] fCity CityList) fProvince ProvinceList) fISP ISPList

end Uip
