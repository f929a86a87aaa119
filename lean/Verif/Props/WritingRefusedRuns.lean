import Verif.Props.WritingRefused
/-!
# C107 on concrete data: a run that is killed and a run on a full disk
-/
namespace Uip.Program
open Uip Uip.Spec Uip.Operate

/-- Killed in the second call for the second output: the first is complete (calls 0 to 2), the second holds its first call
and 5 bytes of the next, the third is not there. -/
example : (match converterD exWorld 0 (fun _ => exKeys) (fun _ => true) (fun n => if n = 4 then .dies 5 else .all) exFs
      { exArgs with output := gs "b.ipdb,c.ipdb,d.ipdb" }, converter exWorld 0 (fun _ => exKeys) (fun _ => true) exFs exArgs with
    | some (fs', none), some (f0, .ok ()) => fs' (gs "b.ipdb") == f0 (gs "b.ipdb") &&
        (fs' (gs "c.ipdb")).any (fun b => (f0 (gs "b.ipdb")).any fun b0 => b.isPrefixOf b0 && 50 < b.length && b.length < b0.length) &&
        fs' (gs "d.ipdb") == none
    | _, _ => false) = true := by decide +kernel

/-- The same with a disk that is full there: an error is reported. -/
example : (match converterD exWorld 0 (fun _ => exKeys) (fun _ => true) (fun n => if n = 4 then .short 5 else .all) exFs
      { exArgs with output := gs "b.ipdb,c.ipdb,d.ipdb" } with
    | some (fs', some (.err (.other "write"))) => (fs' (gs "c.ipdb")).isSome && fs' (gs "d.ipdb") == none
    | _ => false) = true := by decide +kernel

end Uip.Program
