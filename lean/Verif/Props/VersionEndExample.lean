import Verif.Props.VersionEnd
import Verif.Props.EndToEnd6Example
/-!
# C104 on a file
-/
namespace Uip.Program
open Uip Uip.Spec Uip.Operate
open Uip.Json (repair IsInt64 marshalMeta unmarshalMeta)

/-- The example world with Go's JSON. -/
def jsWorld : World := { exWorld with encMeta := marshalMeta false false, decMeta := unmarshalMeta }

/-- What the output reports, and its size. -/
def versionRun (line : Str) : Option (VersionInfo × Nat) :=
  match converter jsWorld 10 (fun _ => [gs "联通"]) (fun _ => true) sixFs { sixArgs with line := line } with
  | some (fs', .ok ()) => match fs' (gs "b.ipdb"), NewDb jsWorld (serverFormats jsWorld 10) fs' (gs "b.ipdb") with
    | some b, .ok q => some (q.versionInfo jsWorld, b.length)
    | _, _ => none
  | _ => none

set_option maxRecDepth 100000 in
/-- The runs end well and their outputs open: the hypotheses of C104 hold of them. -/
theorem version_runs : versionRun [] = some (⟨2, 1, 0, gs "ipplus360demo", [gs "CN"], []⟩, 286) ∧
    versionRun (gs "a.awdb") = some (⟨2, 1, 0, gs "ipplus360demo", [gs "CN"], [gs "ipplus360demo-0"]⟩, 312) := by decide +kernel

set_option maxRecDepth 100000 in
example : (match NewDb jsWorld (converterFormats jsWorld 10) sixFs sixArgs.input with
    | .ok q => some (q.versionInfo jsWorld) | _ => none) = some ⟨2, 1, 1600000000, gs "ipplus360demo", [gs "CN"], []⟩ := by decide +kernel

theorem ex_version : ∃ fs' qi qo,
    converter jsWorld 10 (fun _ => [gs "联通"]) (fun _ => true) sixFs { sixArgs with line := gs "a.awdb" } = some (fs', .ok ()) ∧
    NewDb jsWorld (converterFormats jsWorld 10) sixFs sixArgs.input = .ok qi ∧
    NewDb jsWorld (serverFormats jsWorld 10) fs' (gs "b.ipdb") = .ok qo ∧
    ∃ lq, NewDb jsWorld (converterFormats jsWorld 10) sixFs (gs "a.awdb") = .ok lq ∧
      Reports jsWorld.fmtDate 0 { qi.versionInfo jsWorld with extraInfo := (qi.versionInfo jsWorld).extraInfo ++
        [(lq.versionInfo jsWorld).version ++ 0x2D :: jsWorld.dec (lq.versionInfo jsWorld).build] } (qo.versionInfo jsWorld) := by
  have h := version_runs.2
  unfold versionRun at h
  split at h
  · rename_i fs' hrun
    split at h
    · rename_i b qo hb hq
      obtain ⟨_, hlen⟩ := Prod.mk.inj (Option.some.inj h)
      have hin : ∃ qi, NewDb jsWorld (converterFormats jsWorld 10) sixFs sixArgs.input = .ok qi := by
        have he : (match NewDb jsWorld (converterFormats jsWorld 10) sixFs sixArgs.input with
          | .ok _ => true | _ => false) = true := by decide +kernel
        split at he
        · rename_i qi hq; exact ⟨qi, hq⟩
        · cases he
      obtain ⟨qi, hin⟩ := hin
      refine ⟨fs', qi, qo, hrun, hin, hq, ?_⟩
      exact (C104_converted jsWorld 10 (fun _ => [gs "联通"]) (fun _ => true) sixFs fs' { sixArgs with line := gs "a.awdb" }
        (fun m => ⟨false, false, rfl⟩) rfl (by decide) qi hin hrun (gs "b.ipdb") (by decide +kernel) (by decide +kernel)
        _ (knows_server jsWorld 10) qo hq (fun b' hb' => by
          rw [hb] at hb'
          cases hb'
          omega)).2 (by decide +kernel)
    · cases h
  · cases h

end Uip.Program
