import Verif.Props.TogetherReading
import Verif.Props.TogetherExample
import Verif.Props.WritingRefused
/-!
# C123: an `.ipdb` database that is opened while it is being written for the first time
-/
namespace Uip.Program
open Uip Uip.Spec Uip.Operate

/-- **C123 (a new `.ipdb` file).** A converter whose outputs are new `.ipdb` files runs among other programs, none of which writes
its files.  A program that opens one of the outputs, at any time, fails, or opens the complete database, the one a conversion to
this output alone writes, and answers from the table. -/
theorem C123_refused {ι : Type} [DecidableEq ι] (procs : ι → Proc) (fs : Fs) (i k : ι) (j : Job) (o : Str)
    (hi : procs i = .convert j) (hk : procs k = .opener j.w j.fuel o) (hu : Undisturbed procs i)
    (hn : (splitByte 0x2C j.args.output).Nodup) (ho : o ∈ splitByte 0x2C j.args.output) (hnew : fs o = none)
    (cap : Nat → Nat) (D : IpData) (hin : Dumps j.w j.fuel fs j.args cap D) (ht : Table D) (hline : j.args.line = [])
    (hord : CarrierOrders NormalizedMap D j.orders)
    (hcont : ∀ f ∈ D.fields, f ≠ gs "continent" → Ipdb.asciiLower f ≠ gs "continent")
    (hmeta : Ipdb.MetaRoundTrip j.w.encMeta j.w.decMeta (Ipdb.buildMeta j.w.now D.version (addField D.fields fDistrict)))
    (hos : ∀ o ∈ splitByte 0x2C j.args.output, j.canCreate o = true ∧ pathExt o = gs ".ipdb")
    (xs : List (ι × Nat)) (r : Outcome) (hr : (schedule procs (.start fs) xs).at_ k = .finished r) :
    ∃ f0 b0, converter j.w j.fuel j.orders j.canCreate fs { j.args with output := o } = some (f0, .ok ()) ∧ f0 o = some b0 ∧
      (b0.length < 2 ^ 32 → (∀ q, r ≠ .opened (.ok q)) ∨
        (r = .opened (NewDb j.w (serverFormats j.w j.fuel) (fun _ => some b0) o) ∧
          AnswersTable j.w j.fuel D (fun _ => some b0) o)) := by
  obtain ⟨fend, hend, hsound⟩ := sound_run j.w j.fuel j.orders j.canCreate fs j.args cap D hin ht hline hord hcont hmeta j.args.output hos
  obtain ⟨f0, b0, h1, h2, h3, h4⟩ := hsound o ho
  refine ⟨f0, b0, h1, h2, fun hb => ?_⟩
  obtain ⟨a1, a2⟩ := h4 hb (fun _ => some b0)
  have hcut : ∀ l, l < b0.length → ∀ q, NewDb j.w (serverFormats j.w j.fuel) (fun _ => some (b0.take l)) o ≠ .ok q :=
    fun l hl => (h4 hb (fun _ => some (b0.take l))).2 l hl rfl
  rcases C123_opened procs fs i k j j.w j.fuel o hi hk hu hn ho xs r hr with ⟨hr, _⟩ | ⟨got, hr, hg⟩
  · exact .inl fun q e => by rw [hr] at e; cases e
  · have hp : ∃ l, got = b0.take l := by
      rw [hnew] at hg
      rcases hg with hg | ⟨fend', r', c, m, l, k1, k2, k3, k4, k5⟩
      · exact ⟨0, List.prefix_nil.mp hg⟩
      · rw [hend] at k1
        have e1 : fend = fend' := congrArg Prod.fst (Option.some.inj k1)
        rw [← e1, h3] at k2
        have k2 := Option.some.inj k2
        subst k2
        have hm : m = 0 := Nat.le_zero.mp k3
        subst hm
        exact ⟨l, k5⟩
    obtain ⟨l, rfl⟩ := hp
    by_cases hl : l < b0.length
    · refine .inl fun q e => ?_
      rw [hr] at e
      injection e with e
      exact hcut l hl q e
    · rw [List.take_of_length_le (by omega)] at hr
      exact .inr ⟨hr, a1 rfl⟩

/-- The hypotheses of `C123_refused` are met: the server of the example that opens `b.ipdb` while the converter writes it. -/
example (xs : List (Fin 3 × Nat)) (r : Outcome) (hr : (schedule exProcs (.start exFs) xs).at_ 2 = .finished r) :
    ∃ f0 b0, converter exWorld 0 (fun _ => exKeys) (fun _ => true) exFs { exArgs with output := gs "b.ipdb" } = some (f0, .ok ()) ∧
      f0 (gs "b.ipdb") = some b0 ∧ (b0.length < 2 ^ 32 → (∀ q, r ≠ .opened (.ok q)) ∨
        (r = .opened (NewDb exWorld (serverFormats exWorld 0) (fun _ => some b0) (gs "b.ipdb")) ∧
          AnswersTable exWorld 0 exTable (fun _ => some b0) (gs "b.ipdb"))) := by
  have hsp : splitByte 0x2C (gs "b.ipdb") = [gs "b.ipdb"] := by decide +kernel
  have hno : exFs (gs "b.ipdb") = none := by decide +kernel
  exact C123_refused exProcs exFs 0 2 (exJob (gs "b.ipdb")) (gs "b.ipdb") rfl rfl ex_undisturbed.1
    (by show (splitByte 0x2C (gs "b.ipdb")).Nodup; rw [hsp]; decide)
    (by show _ ∈ splitByte 0x2C (gs "b.ipdb"); rw [hsp]; exact List.mem_singleton.mpr rfl) hno id exTable (ex_dumps 0) ex_table rfl
    ex_orders (by decide +kernel) (ex_meta _ _)
    (by
      intro o ho
      have ho : o ∈ splitByte 0x2C (gs "b.ipdb") := ho
      rw [hsp] at ho
      rw [List.mem_singleton.mp ho]; exact ⟨rfl, by decide +kernel⟩) xs r hr

end Uip.Program
