import Verif.Props.ConverterExample
import Verif.Props.Outputs
/-!
# Property C66, exactly: the files after a failed conversion
-/
namespace Uip.Program
open Uip Uip.Spec

/-- What a run may leave in the output `o` it fails or crashes at: an empty file, or, when it crashes at a `.memip` output, the
text of the first rows of a table whose packing crashes. -/
def Leaves (o : Str) (e : Res Unit) (b : Bytes) : Prop :=
  b = [] ∨ (e = .panic ∧ pathExt o = gs ".memip" ∧
    ∃ (d : IpData) (k : Nat), Memip.pack d = .panic ∧ Memip.pack { d with ips := d.ips.take k } = .ok b)

/-- The outputs before the failing one are complete, the failing one is empty, holds its first lines or could not be created,
and nothing else has changed. -/
theorem writeAll_fails (w : World) (fuel : Nat) (canCreate : Str → Bool) : ∀ (os : List Str) (fs : Fs) (d : HData) (fs' : Fs) (e : Res Unit),
    writeAll (converterFormats w fuel) canCreate os fs d = (fs', e) → e ≠ .ok () →
    ∃ pre o post, os = pre ++ o :: post ∧ (∀ n, n ∉ pre → n ≠ o → fs' n = fs n) ∧
      (if canCreate o = true then ∃ b, fs' o = some b ∧ Leaves o e b else fs' o = fs o) ∧
      ∀ p ∈ pre, p ≠ o → ∃ d0 b d1, PackWriter (converterFormats w fuel) (pathExt p) d0 = .ok (b, d1) ∧ fs' p = some b := by
  intro os
  induction os with
  | nil =>
    intro fs d fs' e h he
    unfold writeAll at h
    injection h with _ h
    exact absurd h.symm he
  | cons o os ih =>
    intro fs d fs' e h he
    unfold writeAll at h
    by_cases hc : canCreate o = true
    · have hpf : PackFile (converterFormats w fuel) canCreate fs o d = match PackWriter (converterFormats w fuel) (pathExt o) d with
        | .ok (b, d) => (fs.set o b, .ok d)
        | .err e => (fs.set o [], .err e)
        | .panic => (fs.set o (leftBy (pathExt o) d), .panic) := by
        unfold PackFile
        rw [if_neg (by rw [hc]; simp)]
        rcases PackWriter (converterFormats w fuel) (pathExt o) d with ⟨b, d1⟩ | x | _ <;> rfl
      rw [hpf] at h
      have hbad : ∀ t e', Leaves o e' t → ((fs.set o t, e') : Fs × Res Unit) = (fs', e) → ∃ pre o' post, o :: os = pre ++ o' :: post ∧ (∀ n, n ∉ pre → n ≠ o' → fs' n = fs n) ∧
          (if canCreate o' = true then ∃ b, fs' o' = some b ∧ Leaves o' e b else fs' o' = fs o') ∧
          ∀ p ∈ pre, p ≠ o' → ∃ d0 b d1, PackWriter (converterFormats w fuel) (pathExt p) d0 = .ok (b, d1) ∧ fs' p = some b := by
        intro t e' hl h
        injection h with h h'
        subst h h'
        refine ⟨[], o, os, rfl, fun n _ hn => ?_, ?_, fun p hp => by cases hp⟩
        · unfold Fs.set; rw [if_neg hn]
        · rw [if_pos hc]; exact ⟨t, by unfold Fs.set; rw [if_pos rfl], hl⟩
      cases hw : PackWriter (converterFormats w fuel) (pathExt o) d with
      | panic =>
        rw [hw] at h
        refine hbad _ _ ?_ h
        unfold leftBy
        by_cases hm : pathExt o = gs ".memip"
        · rw [if_pos hm]
          rcases Memip.calls_first d.view with h | ⟨k, h⟩
          · exact .inl h
          · refine .inr ⟨rfl, hm, d.view, k, ?_, h⟩
            rw [C59_packWriter, hm] at hw
            unfold Convert.PackWriter at hw
            rw [if_neg (by decide), if_neg (by decide), if_pos rfl] at hw
            cases hp : Memip.pack d.view with
            | ok t => rw [hp] at hw; cases hw
            | err e => rw [hp] at hw; cases hw
            | panic => rfl
        · rw [if_neg hm]; exact .inl rfl
      | err x => rw [hw] at h; exact hbad _ _ (.inl rfl) h
      | ok p =>
        rcases p with ⟨b, d1⟩
        rw [hw] at h
        simp only [] at h
        obtain ⟨pre, o', post, h1, h2, h3, h4⟩ := ih _ _ _ _ h he
        refine ⟨o :: pre, o', post, by rw [h1]; rfl, fun n hn hno => ?_, ?_, fun p hp hpo => ?_⟩
        · simp only [List.mem_cons, not_or] at hn
          rw [h2 n hn.2 hno]
          unfold Fs.set; rw [if_neg hn.1]
        · by_cases hc' : canCreate o' = true
          · rw [if_pos hc'] at h3 ⊢; exact h3
          · rw [if_neg hc'] at h3 ⊢
            rw [h3]
            unfold Fs.set
            rw [if_neg (by rintro rfl; exact hc' hc)]
        · by_cases hpp : p ∈ pre
          · exact h4 p hpp hpo
          · rcases List.mem_cons.mp hp with rfl | hp
            · refine ⟨d, b, d1, hw, ?_⟩
              rw [h2 p hpp hpo]
              unfold Fs.set; rw [if_pos rfl]
            · exact absurd hp hpp
    · have hpf : PackFile (converterFormats w fuel) canCreate fs o d = (fs, .err (.other "create")) := by
        unfold PackFile
        rw [if_pos (by simpa using hc)]
      rw [hpf] at h
      injection h with h _
      subst h
      exact ⟨[], o, os, rfl, fun n _ _ => rfl, by rw [if_neg hc], fun p hp => by cases hp⟩

/-- **C66.** After a conversion that fails or crashes, for every input, output list, line file and failure: either no
file has changed, or the run stopped at one of the outputs.  Then that output is empty (unchanged if it could not be
created; a `.memip` output at which the run crashed may hold the text of the first rows of the table), each output before it has been written completely, and every other file is as it was. -/
theorem C66_exact (w : World) (fuel : Nat) (orders : Nat → List Str) (canCreate : Str → Bool) (fs fs' : Fs) (a : Args)
    (e : Res Unit) (h : converter w fuel orders canCreate fs a = some (fs', e)) (he : e ≠ .ok ()) :
    fs' = fs ∨ ∃ pre o post, splitByte 0x2C a.output = pre ++ o :: post ∧
      (∀ n, n ∉ pre → n ≠ o → fs' n = fs n) ∧
      (if canCreate o = true then ∃ b, fs' o = some b ∧ Leaves o e b else fs' o = fs o) ∧
      ∀ p ∈ pre, p ≠ o → ∃ d0 b d1, PackWriter (converterFormats w fuel) (pathExt p) d0 = .ok (b, d1) ∧ fs' p = some b := by
  have hrun : ∀ lineQ, (DumpFile (converterFormats w fuel) fs a.input (ruleText a.rule)
      (operations w orders lineQ a.lineReplace)).map (fun r => match r with
      | .ok d => writeAll (converterFormats w fuel) canCreate (splitByte 0x2C a.output) fs d
      | .err e => (fs, .err e)
      | .panic => (fs, .panic)) = some (fs', e) → fs' = fs ∨ ∃ pre o post, splitByte 0x2C a.output = pre ++ o :: post ∧
      (∀ n, n ∉ pre → n ≠ o → fs' n = fs n) ∧
      (if canCreate o = true then ∃ b, fs' o = some b ∧ Leaves o e b else fs' o = fs o) ∧
      ∀ p ∈ pre, p ≠ o → ∃ d0 b d1, PackWriter (converterFormats w fuel) (pathExt p) d0 = .ok (b, d1) ∧ fs' p = some b := by
    intro lineQ h
    cases hd : DumpFile (converterFormats w fuel) fs a.input (ruleText a.rule) (operations w orders lineQ a.lineReplace) with
    | none => rw [hd] at h; cases h
    | some r =>
      rw [hd, Option.map_some] at h
      have h := Option.some.inj h
      cases r with
      | ok d => exact .inr (writeAll_fails _ _ _ _ _ _ _ _ h he)
      | err x => injection h with h _; exact .inl h.symm
      | panic => injection h with h _; exact .inl h.symm
  unfold converter at h
  simp only [] at h
  by_cases hl : a.line ≠ []
  · rw [if_pos hl] at h
    cases hq : NewDb w (converterFormats w fuel) fs a.line with
    | ok q => rw [hq] at h; exact hrun _ h
    | err x => rw [hq] at h; have h := Option.some.inj h; injection h with h _; exact .inl h.symm
    | panic => rw [hq] at h; have h := Option.some.inj h; injection h with h _; exact .inl h.symm
  · rw [if_neg hl] at h
    exact hrun _ h

/-- A run that fails at its second output (a kind that cannot be written): the first is written, the second is emptied,
the third is never made. -/
example : (match converter exWorld 0 (fun _ => exKeys) (fun _ => true) exFs { exArgs with output := gs "b.ipdb,x.awdb,c.ipdb" } with
    | some (fs', .err _) => (fs' (gs "b.ipdb")).any (fun b => 100 < b.length) && fs' (gs "x.awdb") == some [] && fs' (gs "c.ipdb") == none
    | _ => false) = true := by decide +kernel

/-- A run that crashes at its second output: the input says IPv4 but has an IPv6 row, which the `.memip` packer reaches after
it has written the line of the rows before. -/
example : (match converter { exWorld with decVersion := fun _ => some (some ⟨IpV4, 3, 0, gs "v", [], []⟩) } 0 (fun _ => exKeys)
      (fun _ => true) exFs { exArgs with output := gs "b.ipdb,x.memip,c.ipdb" } with
    | some (fs', .panic) => (fs' (gs "b.ipdb")).any (fun b => 100 < b.length) &&
        fs' (gs "x.memip") == some (gs "167772160 184549375 杭州-浙江-华东-电信-中国-亚洲\n") && fs' (gs "c.ipdb") == none
    | _ => false) = true := by decide +kernel

end Uip.Program
