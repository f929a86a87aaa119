import Verif.Props.OutputsAll
import Verif.Props.ConverterExample
/-!
# C89 on concrete data: `.scan`, `.memip` and `.ipdb` from one conversion, the text first
-/
namespace Uip.Program
open Uip Uip.Spec Uip.Operate

def mxVersion : VersionInfo := ⟨IpV4, 2, 0, gs "v", [], []⟩

def mxWorld : World := { exWorld with decVersion := fun s => if s = gs "{v}" then some (some mxVersion) else none }

def mxText : Str := gs "#### scan dump now ####\n#### {v}\n#### country,province,city,isp,asn,continent,district\n10.0.0.0/9\t中国,浙江省,杭州,电信,4134,AS,\n10.128.0.0/9\t中国,浙江,杭州,鹏博士,4134,AS,\n"

def mxFs : Fs := fun n => if n = gs "a.scan" then some mxText else none

def mxArgs : Args := ⟨gs "a.scan", gs "d.scan,c.memip,b.ipdb", gs "default", [], false⟩

def mxTable : IpData :=
  ⟨[fCountry, fProvince, fCity, fISP, fAsn, fContinent, fDistrict], mxVersion,
   [⟨⟨[10, 0, 0, 0], [255, 128, 0, 0]⟩, [gs "中国", gs "浙江省", gs "杭州", gs "电信", gs "4134", gs "AS", []]⟩,
    ⟨⟨[10, 128, 0, 0], [255, 128, 0, 0]⟩, [gs "中国", gs "浙江", gs "杭州", gs "鹏博士", gs "4134", gs "AS", []]⟩]⟩

theorem mx_dump : Plain.dump mxWorld.decVersion mxText (Export.ParseRule (ruleText mxArgs.rule)) = .ok mxTable := by
  decide +kernel

theorem mx_dumps (fuel : Nat) : Dumps mxWorld fuel mxFs mxArgs id mxTable := by
  refine ⟨mxText, fun b e => withSlices id (some (Plain.dump mxWorld.decVersion b e)), if_pos rfl, ?_, ?_⟩
  · have he : pathExt mxArgs.input = gs ".scan" := by decide +kernel
    rw [he]; rfl
  · simp only []
    rw [mx_dump]; rfl

theorem mx_table : Table mxTable where
  nodup := by decide +kernel
  province := by decide +kernel
  usable := ⟨3, 4, by decide +kernel, by decide +kernel, by decide, by decide⟩
  continent := by decide +kernel
  rows := by decide +kernel
  wf := by decide +kernel
  disjoint := by decide +kernel
  len := by decide +kernel
  modest := by decide +kernel
  notUniform := .inl ⟨0, by decide, by decide +kernel⟩

theorem mx_orders : CarrierOrders NormalizedMap mxTable (fun _ => exKeys) := by
  intro k
  refine ⟨by simp [exKeys], fun m => ⟨fun h => ?_, fun ⟨hm, y, hy, h⟩ => ?_⟩⟩
  · rw [List.mem_singleton.mp h]
    decide +kernel
  · have hall : ∀ y ∈ mxTable.ips.map (normRow NormalizedMap mxTable.fields),
        fieldVal mxTable.fields fISP y ∈ mainCarriers.map some → fieldVal mxTable.fields fISP y = some (gs "电信") := by decide +kernel
    have := hall y hy (by rw [h]; exact List.mem_map.mpr ⟨m, hm, rfl⟩)
    rw [h] at this; injection this with this
    rw [this]; exact List.mem_singleton.mpr rfl

theorem mx_mem : MemTable mxTable ∧ MemFamily mxTable ∧ CommaFree mxTable := by decide +kernel

theorem mx_outputs : splitByte 0x2C mxArgs.output = [gs "d.scan", gs "c.memip", gs "b.ipdb"] := by decide +kernel

/-- Both rows settle to the same view. -/
theorem mx_settled : ∀ x ∈ mxTable.ips, ∀ x', Settled mxTable x x' →
    viewOf (addField mxTable.fields fDistrict) (withDistrict mxTable x'.values) =
      [gs "杭州", gs "浙江", gs "华东", gs "电信", gs "中国", gs "亚洲"] := by
  intro x hx x' h
  simp only [mxTable, List.mem_cons, List.not_mem_nil, or_false] at hx
  rcases hx with rfl | rfl
  · rcases h with ⟨u, s, m, h1, h2, _⟩ | ⟨rfl, _⟩
    · have hu : fieldVal mxTable.fields fISP (normRow NormalizedMap mxTable.fields ⟨⟨[10, 0, 0, 0], [255, 128, 0, 0]⟩,
          [gs "中国", gs "浙江省", gs "杭州", gs "电信", gs "4134", gs "AS", []]⟩) = some (gs "电信") := by decide +kernel
      rw [hu] at h1
      injection h1 with h1
      exact absurd (show u ∈ mainCarriers by rw [← h1]; decide +kernel) h2
    · decide +kernel
  · rcases h with ⟨u, s, m, h1, h2, h3, ⟨hm, y, hy, h4, h5⟩, rfl⟩ | ⟨_, h⟩
    · have : m = gs "电信" := by
        have hall : ∀ y ∈ mxTable.ips.map (normRow NormalizedMap mxTable.fields),
            fieldVal mxTable.fields fISP y ∈ mainCarriers.map some → fieldVal mxTable.fields fISP y = some (gs "电信") := by decide +kernel
        have := hall y hy (by rw [h4]; exact List.mem_map.mpr ⟨m, hm, rfl⟩)
        rw [h4] at this; injection this
      rw [this]
      decide +kernel
    · refine absurd ⟨gs "鹏博士", gs "4134", gs "电信", by decide +kernel, by decide +kernel, by decide +kernel, ⟨by decide +kernel, ?_⟩⟩ h
      decide +kernel

/-- C89 on the example: the three files are written although the text comes first, and the `.memip` file dumped again
shows `10.200.0.1` with the carrier of the AS number and the district. -/
theorem mx_convert (rule : Str) : ∃ fs' h, converter mxWorld 0 (fun _ => exKeys) (fun _ => true) mxFs mxArgs = some (fs', .ok ()) ∧
    (fs' (gs "d.scan")).isSome = true ∧ (fs' (gs "b.ipdb")).isSome = true ∧
    DumpFile (converterFormats mxWorld 0) fs' (gs "c.memip") rule [] = some (.ok h) ∧
    h.view.fields = viewFields ∧
    firstMatch h.view.ips (addrNum [10, 200, 0, 1]) = some [gs "杭州", gs "浙江", gs "华东", gs "电信", gs "中国", gs "亚洲"] ∧
    firstMatch h.view.ips (addrNum [11, 0, 0, 1]) = none := by
  obtain ⟨h1, h2, h3⟩ := mx_mem
  obtain ⟨fs', d, hd, e, _, hall⟩ := C89_all_kinds mxWorld 0 (fun _ => exKeys) (fun _ => true) mxFs mxArgs id mxTable
    (mx_dumps 0) mx_table rfl mx_orders (by decide +kernel)
    (by
      rw [mx_outputs]
      intro o ho
      simp only [List.mem_cons, List.not_mem_nil, or_false] at ho
      rcases ho with rfl | rfl | rfl
      · exact ⟨rfl, .inr (.inl (by decide +kernel))⟩
      · exact ⟨rfl, .inr (.inr ⟨by decide +kernel, h1, h2⟩)⟩
      · exact ⟨rfl, .inl (by decide +kernel)⟩)
    (.inr h3) (fun _ _ _ _ => Ipdb.dec_encMeta _)
  rw [mx_outputs] at hall
  obtain ⟨t, t1, _, _⟩ := hall (gs "d.scan") (by simp)
  obtain ⟨b, b1, _, _⟩ := hall (gs "b.ipdb") (by simp)
  obtain ⟨m, m1, m2, _⟩ := hall (gs "c.memip") (by simp)
  obtain ⟨m', k1, k⟩ := C89_memip mxWorld 0 mxTable mx_table h1 h2 d hd (gs "c.memip") (by decide +kernel) rule
  rw [m2] at k1
  obtain ⟨h, g1, g2, _, g4, g5⟩ := k fs' (by rw [m1, Res.ok.inj k1])
  have hrow : (⟨⟨[10, 128, 0, 0], [255, 128, 0, 0]⟩, [gs "中国", gs "浙江", gs "杭州", gs "鹏博士", gs "4134", gs "AS", []]⟩ : IpRaw) ∈ mxTable.ips := by
    simp [mxTable]
  obtain ⟨x', hs, _, hv⟩ := g4 _ hrow (addrNum [10, 200, 0, 1]) (by decide +kernel)
  refine ⟨fs', h, e, by rw [t1]; rfl, by rw [b1]; rfl, g1, g2, ?_, g5 _ (by decide +kernel)⟩
  rw [hv fun a ha b hb a' b' hsa hsb _ => by rw [mx_settled a ha a' hsa, mx_settled b hb b' hsb], mx_settled _ hrow x' hs]

end Uip.Program
