import Verif.Props.Together
import Verif.Props.ConverterExample
/-!
# C122 on concrete data
-/
namespace Uip.Program
open Uip Uip.Spec Uip.Operate

/-- A run of the converter on the input of the example. -/
def exJob (out : Str) : Job := ⟨exWorld, 0, fun _ => exKeys, fun _ => true, { exArgs with output := out }⟩

/-- Two converters, and a server that opens the output of the first while it is being written. -/
def exProcs : Fin 3 → Proc
  | 0 => .convert (exJob (gs "b.ipdb"))
  | 1 => .convert (exJob (gs "c.ipdb,d.scan"))
  | 2 => .opener exWorld 0 (gs "b.ipdb")

theorem ex_undisturbed : Undisturbed exProcs 0 ∧ Undisturbed exProcs 1 := by
  have h : (∀ k : Fin 3, k ≠ 0 → ∀ n ∈ (exProcs k).writes, n ∉ (exProcs 0).uses) ∧
      ∀ k : Fin 3, k ≠ 1 → ∀ n ∈ (exProcs k).writes, n ∉ (exProcs 1).uses := by decide +kernel
  exact h

/-- The hypotheses of `C122_progress` are met: whatever the other converter and the server do, the first converter writes the file
it writes alone. -/
example : ∃ f b N, (exProcs 0).alone exFs = some (f, .converted (.ok ())) ∧ f (gs "b.ipdb") = some b ∧ ∀ xs : List (Fin 3 × Nat),
    N ≤ (xs.filter fun x => decide (x.1 = 0)).length →
      (schedule exProcs (.start exFs) xs).at_ 0 = .finished (.converted (.ok ())) ∧
      (schedule exProcs (.start exFs) xs).fs (gs "b.ipdb") = some b := by
  obtain ⟨f, b, h1, h2, _⟩ := C64_convert exWorld 0 (fun _ => exKeys) (fun _ => true) exFs exArgs id exTable (ex_dumps 0)
    ex_table rfl ex_orders (by decide +kernel) (by decide +kernel) rfl (ex_meta _ _)
  have ha : (exProcs 0).alone exFs = some (f, .converted (.ok ())) := by
    show ((converter exWorld 0 (fun _ => exKeys) (fun _ => true) exFs exArgs).map fun x => (x.1, Outcome.converted x.2)) = _
    rw [h1]; rfl
  obtain ⟨N, hN⟩ := C122_progress exProcs exFs 0 ex_undisturbed.1 ha
  refine ⟨f, b, N, ha, h2, fun xs hx => ⟨(hN xs hx).1, ?_⟩⟩
  rw [(hN xs hx).2 (gs "b.ipdb") (by decide +kernel)]
  exact h2

/-! ## Two converters with the same output -/

def Phase.fine : Phase → Bool
  | .finished (.converted (.ok ())) => true
  | _ => false

/-- A smaller input. -/
def smallText : Str := gs "#### scan dump now ####\n#### {v}\n#### country\n10.0.0.0/9\t中国\n"

def twoInputs : Fs := fun n => if n = gs "a.scan" then some exText else if n = gs "e.scan" then some smallText else none

def clash : Fin 2 → Proc
  | 0 => .convert ⟨exWorld, 0, fun _ => exKeys, fun _ => true, { exArgs with output := gs "o.scan" }⟩
  | 1 => .convert ⟨exWorld, 0, fun _ => [], fun _ => true, { exArgs with input := gs "e.scan", output := gs "o.scan", rule := gs "country" }⟩

def clashRun : List (Fin 2 × Nat) :=
  [(0, 0), (0, 1000), (0, 0), (1, 0), (1, 1000), (1, 0), (0, 0), (1, 0), (0, 1000), (1, 1000), (0, 0), (1, 0), (0, 0), (1, 0)]

def aloneOutput (i : Fin 2) : Option Bytes := ((clash i).alone twoInputs).bind fun r => r.1 (gs "o.scan")

/-- **C122 (the limit of it).** Two converters with the same output can both report success and leave a file that neither of them
writes alone, here the whole of the shorter output followed by the rest of the longer: `Undisturbed` cannot be dropped. -/
theorem C122_negation : ((schedule clash (.start twoInputs) clashRun).at_ 0).fine = true ∧
    ((schedule clash (.start twoInputs) clashRun).at_ 1).fine = true ∧
    (aloneOutput 0).isSome = true ∧ (aloneOutput 1).isSome = true ∧
    (schedule clash (.start twoInputs) clashRun).fs (gs "o.scan") =
      (aloneOutput 0).bind (fun a => (aloneOutput 1).map fun b => b ++ a.drop b.length) ∧
    (schedule clash (.start twoInputs) clashRun).fs (gs "o.scan") ≠ aloneOutput 0 ∧
    (schedule clash (.start twoInputs) clashRun).fs (gs "o.scan") ≠ aloneOutput 1 := by
  decide +kernel

end Uip.Program
