import Verif.Props.ConverterLine
import Verif.Props.ConverterExample
/-!
# Concrete conversions with a line database (C65, C90)
-/
namespace Uip.Program
open Uip Uip.Spec Uip.Operate

/-- A line database: two networks with their lines. -/
def exLines : IpData :=
  ⟨[fCountry, fLine], ⟨IpAll, 2, 0, gs "l", [], []⟩,
   [⟨⟨[10, 0, 0, 0], [255, 128, 0, 0]⟩, [gs "中国", gs "移动"]⟩, ⟨⟨[12, 0, 0, 0], [255, 0, 0, 0]⟩, [gs "中国", gs "联通"]⟩]⟩

def exLineFile : Bytes := match Ipdb.pack exWorld.encMeta exWorld.now exLines with
  | .ok b => b
  | _ => []

theorem ex_line_size : exLineFile.length < 2 ^ 32 := by decide +kernel

/-- Two Chinese networks apart from one another with one record, and another one. -/
def exText2 : Str := gs "#### scan dump now ####\n#### {v}\n#### country,province,city,isp,asn,continent,district\n10.0.0.0/8\t中国,浙江,杭州,电信,4134,AS,\n12.0.0.0/8\t中国,浙江,杭州,电信,4134,AS,\n2001:db8::/32\t美国,,,,15169,NA,\n"

def exFs2 : Fs := fun n => if n = gs "a.scan" then some exText2 else if n = gs "line.ipdb" then some exLineFile else none

def exArgs2 (replace : Bool) : Args := ⟨gs "a.scan", gs "b.ipdb", gs "default", gs "line.ipdb", replace⟩

def exTable2 : IpData :=
  ⟨[fCountry, fProvince, fCity, fISP, fAsn, fContinent, fDistrict], exVersion,
   [⟨⟨[10, 0, 0, 0], [255, 0, 0, 0]⟩, [gs "中国", gs "浙江", gs "杭州", gs "电信", gs "4134", gs "AS", []]⟩,
    ⟨⟨[12, 0, 0, 0], [255, 0, 0, 0]⟩, [gs "中国", gs "浙江", gs "杭州", gs "电信", gs "4134", gs "AS", []]⟩,
    ⟨⟨[32, 1, 13, 184, 0, 0, 0, 0, 0, 0, 0, 0, 0, 0, 0, 0], [255, 255, 255, 255, 0, 0, 0, 0, 0, 0, 0, 0, 0, 0, 0, 0]⟩,
      [gs "美国", [], [], [], [], gs "NA", []]⟩]⟩

theorem ex2_dump : Plain.dump exWorld.decVersion exText2 (Export.ParseRule (ruleText (gs "default"))) = .ok exTable2 := by
  decide +kernel

theorem ex2_dumps (fuel : Nat) (b : Bool) : Dumps exWorld fuel exFs2 (exArgs2 b) id exTable2 := by
  refine ⟨exText2, fun b e => withSlices id (some (Plain.dump exWorld.decVersion b e)), if_pos rfl, ?_, ?_⟩
  · have he : pathExt (exArgs2 b).input = gs ".scan" := by show pathExt (gs "a.scan") = _; decide +kernel
    rw [he]; rfl
  · show withSlices id (some (Plain.dump exWorld.decVersion exText2 (Export.ParseRule (ruleText (gs "default"))))) = _
    rw [ex2_dump]; rfl

theorem ex2_table : Table exTable2 where
  nodup := by decide +kernel
  province := by decide +kernel
  usable := ⟨3, 4, by decide +kernel, by decide +kernel, by decide, by decide⟩
  continent := by decide +kernel
  rows := by decide +kernel
  wf := by decide +kernel
  disjoint := by decide +kernel
  len := by decide +kernel
  modest := by decide +kernel
  notUniform := .inl ⟨0, by decide, by decide +kernel⟩

theorem ex2_orders : CarrierOrders NormalizedMap exTable2 (fun _ => exKeys) := by
  intro k
  refine ⟨by simp [exKeys], fun m => ⟨fun h => ?_, fun ⟨hm, y, hy, h⟩ => ?_⟩⟩
  · rw [List.mem_singleton.mp h]
    decide +kernel
  · have hall : ∀ y ∈ exTable2.ips.map (normRow NormalizedMap exTable2.fields),
        fieldVal exTable2.fields fISP y ∈ mainCarriers.map some → fieldVal exTable2.fields fISP y = some (gs "电信") := by decide +kernel
    have := hall y hy (by rw [h]; exact List.mem_map.mpr ⟨m, hm, rfl⟩)
    rw [h] at this; injection this with this
    rw [this]; exact List.mem_singleton.mpr rfl

/-- The line file opens, and never makes a query panic. -/
theorem ex2_lines (fuel : Nat) : ∃ lq, NewDb exWorld (converterFormats exWorld fuel) exFs2 (gs "line.ipdb") = .ok lq ∧
    ∀ a, lq.query a ≠ .panic := by
  obtain ⟨bytes, e, k⟩ := opened_packed (knows_converter exWorld fuel) (ipd := exLines) (by decide +kernel) (by decide +kernel)
    (by decide +kernel) (by decide +kernel) (ex_meta _ _)
  have hb : exLineFile = bytes := by unfold exLineFile; rw [e]
  obtain ⟨q, o, hp, _⟩ := k (by rw [← hb]; exact ex_line_size)
  refine ⟨q, ?_, hp⟩
  unfold NewDb exFs2
  rw [if_neg (by decide +kernel), if_pos rfl]
  simp only []
  rw [show pathExt (gs "line.ipdb") = gs ".ipdb" from by decide +kernel, hb]
  exact o

/-- The hypotheses of C65 and of both parts of C90 are met. -/
example : ∃ fs' b, converter exWorld 0 (fun _ => exKeys) (fun _ => true) exFs2 (exArgs2 true) = some (fs', .ok ()) ∧ fs' (gs "b.ipdb") = some b := by
  obtain ⟨lq, h, hp⟩ := ex2_lines 0
  obtain ⟨fs', b, e1, e2, _⟩ := C90_replace exWorld 0 (fun _ => exKeys) (fun _ => true) exFs2 (exArgs2 true) id exTable2
    (ex2_dumps 0 true) ex2_table (by decide +kernel) lq (by show gs "line.ipdb" ≠ []; decide +kernel) h (fun ip _ => hp ip) rfl ex2_orders
    (by show (0x2C : UInt8) ∉ gs "b.ipdb"; decide +kernel) (by show pathExt (gs "b.ipdb") = _; decide +kernel) rfl (ex_meta _ _)
  exact ⟨fs', b, e1, e2⟩

example : ∃ fs' b, converter exWorld 0 (fun _ => exKeys) (fun _ => true) exFs2 (exArgs2 false) = some (fs', .ok ()) ∧ fs' (gs "b.ipdb") = some b := by
  obtain ⟨lq, h, hp⟩ := ex2_lines 0
  obtain ⟨fs', b, e1, e2, _⟩ := C90_attach exWorld 0 (fun _ => exKeys) (fun _ => true) exFs2 (exArgs2 false) id exTable2
    (ex2_dumps 0 false) ex2_table (by decide +kernel) lq (by show gs "line.ipdb" ≠ []; decide +kernel) h (fun ip _ => hp ip) rfl ex2_orders
    (by show (0x2C : UInt8) ∉ gs "b.ipdb"; decide +kernel) (by show pathExt (gs "b.ipdb") = _; decide +kernel) rfl (ex_meta _ _)
  exact ⟨fs', b, e1, e2⟩

example : ∃ fs' b, converter exWorld 0 (fun _ => exKeys) (fun _ => true) exFs2 (exArgs2 false) = some (fs', .ok ()) ∧ fs' (gs "b.ipdb") = some b := by
  obtain ⟨lq, h, hp⟩ := ex2_lines 0
  obtain ⟨fs', b, e1, e2, _⟩ := C65_convert_line exWorld 0 (fun _ => exKeys) (fun _ => true) exFs2 (exArgs2 false) exTable2
    (ex2_dumps 0 false) ex2_table (by decide +kernel) (by decide +kernel) lq (by show gs "line.ipdb" ≠ []; decide +kernel) h (fun ip _ => hp ip) rfl ex2_orders
    (by show (0x2C : UInt8) ∉ gs "b.ipdb"; decide +kernel) (by show pathExt (gs "b.ipdb") = _; decide +kernel) rfl (ex_meta _ _)
  exact ⟨fs', b, e1, e2⟩

def noInfo : IpInfo := ⟨[], [], [], [], [], [], [], []⟩

/-- The line database as a function. -/
def exLine : LineDb where
  version := []
  build := 0
  query := fun ip => if ip = goIPv4 10 0 0 0 then .ok ({ noInfo with line := gs "移动" }, 0)
    else if ip = goIPv4 12 0 0 0 then .ok ({ noInfo with line := gs "联通" }, 0) else .err .databaseError

/-- First address and carrier of the rows the operations of a run give. -/
def ex2Rows (op : HData → Res HData) : Option (List (IP × Option Str)) :=
  match runOps [ReplaceShortage NormalizedMap, TrimAsnIspDup (fun _ => exKeys), MergeNearNetwork, op, AttachDistrict exWorld.grow]
      (dumped id exTable2) with
  | .ok d => some (d.view.ips.map fun r => (r.cidr.ip, fieldVal d.fields fISP r))
  | _ => none

/-- **C90 (negation).** With `-lineReplace`, `10.0.0.0/8` (its line is 移动) is given the line 联通 of the network
`12.0.0.0/8`, because both rows come from one record of the input. -/
theorem C90_negation : lineAt exLine (goIPv4 10 0 0 0) = gs "移动" ∧
    (ex2Rows (ReplaceLineByCidr exWorld.dec exLine)).map (·.take 2) =
      some [(goIPv4 10 0 0 0, some (gs "联通")), (goIPv4 12 0 0 0, some (gs "联通"))] := by
  decide +kernel

end Uip.Program
