import Verif.Props.Converter
import Verif.Props.Plain
/-!
# A concrete conversion (C64, C65): the hypotheses are met
-/
namespace Uip.Program
open Uip Uip.Spec Uip.Operate

def exVersion : VersionInfo := ⟨IpAll, 3, 0, gs "v", [], []⟩

/-- A world with toy JSON codecs. -/
def exWorld : World where
  encMeta := Ipdb.encMeta
  decMeta := Ipdb.decMeta
  encVersion := fun _ => gs "{v}"
  decVersion := fun s => if s = gs "{v}" then some (some exVersion) else none
  now := 0
  nowText := gs "now"
  day := gs "day"
  fmtDate := fun _ => gs "date"
  dec := fun _ => gs "0"
  cap := id
  grow := fun n => 2 * n
  warm := gs "1.1.1.1\n8.8.8.8\n"

/-- A `.scan` input with three rows. -/
def exText : Str := gs "#### scan dump now ####\n#### {v}\n#### country,province,city,isp,asn,continent,district\n10.0.0.0/9\t中国,浙江省,杭州,电信,4134,AS,\n10.128.0.0/9\t中国,浙江,杭州,鹏博士,4134,AS,\n2001:db8::/32\t美国,,,,15169,NA,\n"

def exFs : Fs := fun n => if n = gs "a.scan" then some exText else none

def exArgs : Args := ⟨gs "a.scan", gs "b.ipdb", gs "default", [], false⟩

/-- What the input dumps to under the default rule. -/
def exTable : IpData :=
  ⟨[fCountry, fProvince, fCity, fISP, fAsn, fContinent, fDistrict], exVersion,
   [⟨⟨[10, 0, 0, 0], [255, 128, 0, 0]⟩, [gs "中国", gs "浙江省", gs "杭州", gs "电信", gs "4134", gs "AS", []]⟩,
    ⟨⟨[10, 128, 0, 0], [255, 128, 0, 0]⟩, [gs "中国", gs "浙江", gs "杭州", gs "鹏博士", gs "4134", gs "AS", []]⟩,
    ⟨⟨[32, 1, 13, 184, 0, 0, 0, 0, 0, 0, 0, 0, 0, 0, 0, 0], [255, 255, 255, 255, 0, 0, 0, 0, 0, 0, 0, 0, 0, 0, 0, 0]⟩,
      [gs "美国", [], [], [], [], gs "NA", []]⟩]⟩

theorem ex_dump : Plain.dump exWorld.decVersion exText (Export.ParseRule (ruleText exArgs.rule)) = .ok exTable := by
  decide +kernel

theorem ex_rule : (Export.ParseRule (ruleText exArgs.rule)).isSome = true := by decide +kernel

theorem ex_dumps (fuel : Nat) : Dumps exWorld fuel exFs exArgs id exTable := by
  refine ⟨exText, fun b e => withSlices id (some (Plain.dump exWorld.decVersion b e)), if_pos rfl, ?_, ?_⟩
  · have he : pathExt exArgs.input = gs ".scan" := by decide +kernel
    rw [he]; rfl
  · simp only []
    rw [ex_dump]; rfl

theorem ex_table : Table exTable where
  nodup := by decide +kernel
  province := by decide +kernel
  usable := ⟨3, 4, by decide +kernel, by decide +kernel, by decide, by decide⟩
  continent := by decide +kernel
  rows := by decide +kernel
  wf := by decide +kernel
  disjoint := by decide +kernel
  len := by decide +kernel
  modest := by decide +kernel
  notUniform := .inl ⟨0, by decide, by decide +kernel⟩

/-- The keys of the map TrimAsnIspDup builds: one main carrier. -/
def exKeys : List Str := [gs "电信"]

theorem ex_orders : CarrierOrders NormalizedMap exTable (fun _ => exKeys) := by
  intro k
  refine ⟨by simp [exKeys], fun m => ⟨fun h => ?_, fun ⟨hm, y, hy, h⟩ => ?_⟩⟩
  · rw [List.mem_singleton.mp h]
    decide +kernel
  · have hall : ∀ y ∈ exTable.ips.map (normRow NormalizedMap exTable.fields),
        fieldVal exTable.fields fISP y ∈ mainCarriers.map some → fieldVal exTable.fields fISP y = some (gs "电信") := by decide +kernel
    have := hall y hy (by rw [h]; exact List.mem_map.mpr ⟨m, hm, rfl⟩)
    rw [h] at this; injection this with this
    rw [this]; exact List.mem_singleton.mpr rfl

theorem ex_meta (v : VersionInfo) (fs : List Str) :
    Ipdb.MetaRoundTrip exWorld.encMeta exWorld.decMeta (Ipdb.buildMeta exWorld.now v fs) := fun _ _ _ _ => Ipdb.dec_encMeta _

/-- The second row settles to the carrier of the first one: both end with the same record. -/
theorem ex_settled (x' : IpRaw)
    (h : Settled exTable ⟨⟨[10, 128, 0, 0], [255, 128, 0, 0]⟩, [gs "中国", gs "浙江", gs "杭州", gs "鹏博士", gs "4134", gs "AS", []]⟩ x') :
    converted exTable x'.values =
      ⟨gs "中国", gs "华东", gs "浙江", gs "杭州", gs "4134", gs "电信", gs "亚洲", []⟩ := by
  rcases h with ⟨u, s, m, h1, h2, h3, ⟨hm, y, hy, h4, h5⟩, rfl⟩ | ⟨_, h⟩
  · have : m = gs "电信" := by
      have hall : ∀ y ∈ exTable.ips.map (normRow NormalizedMap exTable.fields),
          fieldVal exTable.fields fISP y ∈ mainCarriers.map some → fieldVal exTable.fields fISP y = some (gs "电信") := by decide +kernel
      have := hall y hy (by rw [h4]; exact List.mem_map.mpr ⟨m, hm, rfl⟩)
      rw [h4] at this; injection this
    rw [this]
    decide +kernel
  · refine absurd ⟨gs "鹏博士", gs "4134", gs "电信", by decide +kernel, by decide +kernel, by decide +kernel, ⟨by decide +kernel, ?_⟩⟩ h
    decide +kernel

/-- Length of the output file. -/
def exSize : Option Nat := (converter exWorld 0 (fun _ => exKeys) (fun _ => true) exFs exArgs).bind fun r => (r.1 exArgs.output).map (·.length)

theorem ex_size : exSize.all (· < 2 ^ 32) = true := by decide +kernel

/-- C64 on the example: for every address of `10.128.0.0/9` (for instance `10.200.0.1`) the written file, opened again,
gives the carrier of the AS number and the district. -/
theorem ex_convert (ip : IP) (hip : ValidIP ip) (hc : Covers ⟨[10, 128, 0, 0], [255, 128, 0, 0]⟩ (addrNum ip)) :
    ∃ fs' q m, converter exWorld 0 (fun _ => exKeys) (fun _ => true) exFs exArgs = some (fs', .ok ()) ∧
      NewDb exWorld (serverFormats exWorld 0) fs' exArgs.output = .ok q ∧
      q.query ip = .ok (⟨gs "中国", gs "华东", gs "浙江", gs "杭州", gs "4134", gs "电信", gs "亚洲", []⟩, m) := by
  obtain ⟨fs', b, h1, h2, _, h3⟩ := C64_convert exWorld 0 (fun _ => exKeys) (fun _ => true) exFs exArgs id exTable (ex_dumps 0)
    ex_table rfl ex_orders (by decide +kernel) (by decide +kernel) rfl (ex_meta _ _)
  have hb : b.length < 2 ^ 32 := by
    have := ex_size
    unfold exSize at this
    rw [h1] at this
    simp only [Option.bind_some, h2, Option.map_some, Option.all_some, decide_eq_true_eq] at this
    exact this
  obtain ⟨q, e1, e2, _⟩ := h3 hb
  obtain ⟨x', n, hs, _, _, e⟩ := e2 ip ⟨⟨[10, 128, 0, 0], [255, 128, 0, 0]⟩, [gs "中国", gs "浙江", gs "杭州", gs "鹏博士", gs "4134", gs "AS", []]⟩
    hip (by unfold Supports; split <;> decide) (by decide +kernel) hc
  refine ⟨fs', q, maskFor n ip, h1, e1, ?_⟩
  rw [e, ex_settled x' hs]

example : ValidIP [10, 200, 0, 1] ∧ Covers ⟨[10, 128, 0, 0], [255, 128, 0, 0]⟩ (addrNum [10, 200, 0, 1]) := by decide +kernel

end Uip.Program
