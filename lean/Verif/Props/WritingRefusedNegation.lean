import Verif.Props.WritingRefused
/-!
# C107 on concrete data: text outputs without any error
-/
namespace Uip.Program
open Uip Uip.Spec Uip.Operate

/-- C107: that every output is complete when no error is reported is false: on a full disk a `.memip` output is reported as
written and is empty, and a `.scan` output may be without its header (here: the disk has space again for the rows). -/
theorem C107_negation :
    (match converterD exWorld 0 (fun _ => exKeys) (fun _ => true) (fun _ => .short 0) exFs { exArgs with output := gs "x.memip" } with
      | some (fs', some (.ok ())) => fs' (gs "x.memip") == some []
      | _ => false) = true ∧
    (match converterD exWorld 0 (fun _ => exKeys) (fun _ => true) (fun n => if n < 3 then .short 0 else .all) exFs
        { exArgs with output := gs "x.scan" } with
      | some (fs', some (.ok ())) => (fs' (gs "x.scan")).any fun b => (gs "10.0.0.0/8\t").isPrefixOf b
      | _ => false) = true := by
  constructor <;> decide +kernel

end Uip.Program
