import Verif.Props.Canonical
import Verif.Props.ConverterExample
/-!
# C117: the condition on carriers is needed
-/
namespace Uip.Program
open Uip Uip.Spec Uip.Operate

/-- An AS number with two main carriers and a third network that takes one of them. -/
def twoText : Str := gs "#### scan dump now ####\n#### {v}\n#### country,province,city,isp,asn,continent,district\n10.0.0.0/10\t中国,浙江,,电信,4134,AS,\n10.64.0.0/10\t中国,浙江,,联通,4134,AS,\n10.128.0.0/9\t中国,浙江,,鹏博士,4134,AS,\n"

def twoFs : Fs := fun n => if n = gs "a.scan" then some twoText else none

/-- The output for one order of the map. -/
def twoOut (keys : List Str) : Option Bytes := (converter exWorld 0 (fun _ => keys) (fun _ => true) twoFs exArgs).bind fun r => r.1 exArgs.output

/-- C117, the condition is needed: one and the same file is converted to different bytes in two runs when an AS number occurs
with two main carriers. -/
theorem C117_needs_one_carrier : (twoOut [gs "电信", gs "联通"]).isSome = true ∧ (twoOut [gs "联通", gs "电信"]).isSome = true ∧
    twoOut [gs "电信", gs "联通"] ≠ twoOut [gs "联通", gs "电信"] := by
  refine ⟨?_, ?_, ?_⟩ <;> decide +kernel

end Uip.Program
