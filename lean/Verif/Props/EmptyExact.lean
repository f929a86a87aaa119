import Verif.Props.Memip
import Verif.Props.Operate
import Verif.Props.Plain
/-!
# Properties C34 and C45, exactly

C34: merging and the `.memip` packer crash on a table without rows, and on no other table of well-formed networks.
C45: dumping a `.scan` text without a rule gives the fields and the networks of the dump with a rule, and no values.
-/
namespace Uip.Operate
open Uip Uip.Spec

/-- **C34 (MergeNearNetwork).** Merging a table of well-formed networks crashes exactly if it has no rows; with rows it
gives a table. -/
theorem C34_merge_iff (d : HData) (hw : ∀ r ∈ d.rows, WFNet r.cidr) :
    (MergeNearNetwork d = .panic ↔ d.rows = []) ∧ (d.rows ≠ [] → ∃ d', MergeNearNetwork d = .ok d') := by
  refine ⟨⟨fun h => ?_, fun h => ?_⟩, fun h => C34_nonempty d h hw⟩
  · apply Decidable.byContradiction
    intro hne
    obtain ⟨d', e⟩ := C34_nonempty d hne hw
    rw [e] at h; cases h
  · rcases d with ⟨f, v, rows, hp⟩
    simp only at h; subst h
    exact C34_negation f v hp

end Uip.Operate

namespace Uip.Memip
open Uip Uip.Spec

/-- **C34 (memip).** Packing a table of well-formed networks, aligned with its fields, as `.memip` crashes exactly if it
has no rows; with rows it gives a text.  (A table marked IPv4-only must hold IPv4 networks.) -/
theorem C34_memip_iff (d : IpData) (hw : ∀ r ∈ d.ips, WFNet r.cidr) (hl : ∀ r ∈ d.ips, r.values.length = d.fields.length)
    (h4 : d.version.IsIpV4 = true → ∀ r ∈ d.ips, V4Net r.cidr) :
    (pack d = .panic ↔ d.ips = []) ∧ (d.ips ≠ [] → ∃ text, pack d = .ok text) := by
  have key : d.ips ≠ [] → ∃ text, pack d = .ok text := by
    intro hne
    have hp : ∃ gs, Rel2 IsRun gs (runsOf d) ∧ pack d = rangeLines d.version.IsIpV4 gs := by
      unfold pack packRanges runsOf
      cases hi : d.ips with
      | nil => exact absurd hi hne
      | cons x xs =>
        rw [hi] at hw hl
        obtain ⟨nr, hnr, hrun⟩ := rowRun_new (fs := d.fields) (hw x (by simp))
        obtain ⟨gs, e, k⟩ := packLoop_runs xs _ _ hrun (fun r hr => hw r (by simp [hr])) (fun r hr => hl r (by simp [hr]))
        refine ⟨gs, k, ?_⟩
        simp only [covert_spec (hl x (by simp)), hnr, Res.ok_bind, e]
    obtain ⟨gs, hk, e⟩ := hp
    rw [e]
    have hr : ∀ r ∈ runsOf d, d.version.IsIpV4 = true → v4Lo ≤ r.lo ∧ r.hi ≤ v4End := by
      intro r hr hv
      obtain ⟨⟨x, hx, e1, _⟩, y, hy, e2⟩ := runsOf_mem hr
      exact ⟨by rw [e1]; exact (h4 hv x hx).1, by rw [e2]; exact (h4 hv y hy).2⟩
    generalize runsOf d = rs at hk hr
    clear e
    induction hk with
    | nil => exact ⟨[], rfl⟩
    | @cons g r gs rs hg _ ih =>
      obtain ⟨t, et⟩ := ih (fun r h => hr r (by simp [h]))
      have hline : ∃ l, rangeLine d.version.IsIpV4 g = .ok l := by
        unfold rangeLine
        cases hv : d.version.IsIpV4 with
        | false => exact ⟨_, if_neg (by simp)⟩
        | true =>
          rw [if_pos rfl]
          obtain ⟨⟨l1, l2, hle⟩, h1, h2, h3⟩ := hg
          obtain ⟨ha, hb⟩ := hr r (by simp) hv
          have four : ∀ ip : IP, ip.length = 16 → v4Lo ≤ addrNum ip → addrNum ip < v4End → ∃ x, IPv4ToUint32 ip = .ok x := by
            intro ip hl ha hb
            have : (To4 ip).isSome := (To4_isSome_iff (.inr hl)).mpr (by unfold v4Lo at ha; unfold v4End at hb; omega)
            obtain ⟨p, hp⟩ := Option.isSome_iff_exists.mp this
            obtain ⟨x, e1, _⟩ := C01_ipv4_roundtrip ip p hp
            exact ⟨x, e1⟩
          obtain ⟨x, ex⟩ := four g.1.start l1 (by omega) (by omega)
          obtain ⟨y, ey⟩ := four g.1.end_ l2 (by omega) (by omega)
          exact ⟨_, by rw [ex, ey]; rfl⟩
      obtain ⟨l, el⟩ := hline
      exact ⟨l ++ t, by simp only [rangeLines, el, et]; rfl⟩
  refine ⟨⟨fun h => ?_, fun h => ?_⟩, key⟩
  · apply Decidable.byContradiction
    intro hne
    obtain ⟨t, e⟩ := key hne
    rw [e] at h; cases h
  · rcases d with ⟨f, v, rows⟩
    simp only at h; subst h
    exact C34_memip_negation f v

example : (∀ r ∈ demo4.ips, WFNet r.cidr) ∧ (∀ r ∈ demo4.ips, r.values.length = demo4.fields.length) ∧
    demo4.version.IsIpV4 = true ∧ (∀ r ∈ demo4.ips, V4Net r.cidr) ∧ demo4.ips.length = 4 := by decide +kernel

end Uip.Memip

namespace Uip.Plain
open Uip Uip.Spec

/-- **C45.** Whatever the text: when dumping it with some rule succeeds, dumping it without one succeeds too, with the
same version and the same networks in the same order, and every row has no values. -/
theorem C45_exact (dec : Str → Option (Option VersionInfo)) (text : Str) (rule : Export.Exporter) (d : IpData)
    (h : dump dec text (some rule) = .ok d) :
    ∃ fields, dump dec text none = .ok ⟨fields, d.version, d.ips.map fun r => ⟨r.cidr, []⟩⟩ := by
  unfold dump at h ⊢
  obtain ⟨t, ht, h⟩ := Res.bind_eq_ok.mp h
  rw [ht]
  simp only [Res.ok_bind]
  unfold Traversal.Dump at h ⊢
  cases hv : t.version with
  | none => rw [hv] at h; cases h
  | some v =>
    rw [hv] at h
    simp only [] at h ⊢
    obtain ⟨ips, hi, h⟩ := Res.bind_eq_ok.mp h
    injection h with h
    subst h
    have key : ∀ (ls : List Str) fm fm' out, dumpLoop t (some rule) fm ls = .ok out →
        dumpLoop t none fm' ls = .ok (out.map fun r => ⟨r.cidr, []⟩) := by
      intro ls fm fm'
      induction ls with
      | nil => intro out h; injection h with h; subst h; rfl
      | cons l ls ih =>
        intro out h
        simp only [dumpLoop] at h ⊢
        obtain ⟨⟨c, info⟩, e1, h⟩ := Res.bind_eq_ok.mp h
        obtain ⟨vals, e2, h⟩ := Res.bind_eq_ok.mp h
        obtain ⟨last, e3, h⟩ := Res.bind_eq_ok.mp h
        rw [e1]
        simp only [rowValues, Res.ok_bind]
        simp only [] at e3 h
        rw [e3]
        simp only [Res.ok_bind]
        split at h
        · rename_i hm
          injection h with h; subst h
          rw [if_pos hm]; rfl
        · rename_i hm
          obtain ⟨rs, hrs, h⟩ := Res.bind_eq_ok.mp h
          injection h with h; subst h
          rw [if_neg hm, ih rs hrs]; rfl
    exact ⟨t.fields, by rw [key _ _ _ _ hi]; rfl⟩

/-- **C45 (packed texts).** Packing a table and dumping the text without a rule gives all its fields, its networks up
to the first row that ends an address family, and no values. -/
theorem C45_packed {enc : VersionInfo → Str} {dec : Str → Option (Option VersionInfo)} {now : Str} {v : VersionInfo} {d : HData}
    (hw : d.WF) (hd : ScanOK d.view) (hver : LineOK (enc d.version)) (hnow : LineOK now)
    (hdec : dec (enc d.version) = some (some v)) :
    ∃ text d' out, pack enc now d = .ok (text, d') ∧ dump dec text none = .ok ⟨d.fields, v, out⟩ ∧
      Rel2 (fun r o => SameNet r.cidr o.cidr ∧ o.values = []) (untilEnd d.view.ips) out := by
  obtain ⟨d', hp, _⟩ := pack_text (enc := enc) (now := now) hw
  obtain ⟨out, h1, h2⟩ := dump_packed hd hver hnow hdec (rs := d.view.ips) (fun r h => h) none
  refine ⟨_, d', out, hp, h1, h2.imp_mem fun r _ o _ h => ⟨h.1.same, ?_⟩⟩
  have := h.2
  simp only [rowValues] at this
  exact (Res.ok.inj this).symm

example : demoH.WF ∧ ScanOK demoH.view ∧ LineOK (demoEnc demoH.version) ∧ LineOK demoNow ∧
    demoDec (demoEnc demoH.version) = some (some demoV) := by decide +kernel

end Uip.Plain
