import Verif.Props.Canonical
import Verif.Props.EndToEndExample
/-!
# C117 on concrete files
-/
namespace Uip.Program
open Uip Uip.Spec Uip.Operate
open Uip.Export (sevenFields)
open Uip.Dump (Walked)

/-- The data of `srcTable`, with the lower half cut in two and the rows in another order. -/
def cutTable : IpData :=
  { fields := [gs "country", gs "province", gs "city", gs "isp", gs "continent"]
    version := ⟨IpV4, 3, 7, gs "v", [gs "EN"], []⟩
    ips := [
      ⟨⟨[128, 0, 0, 0], [128, 0, 0, 0]⟩, [gs "美国", gs "加州", [], gs "comcast", gs "NA"]⟩,
      ⟨⟨[64, 0, 0, 0], [192, 0, 0, 0]⟩, [gs "中国", gs "浙江省", gs "杭州", gs "电信", gs "AS"]⟩,
      ⟨⟨[0, 0, 0, 0], [192, 0, 0, 0]⟩, [gs "中国", gs "浙江省", gs "杭州", gs "电信", gs "AS"]⟩] }

/-- What both tables answer for an address. -/
def halfInfo (ip : IP) : IpInfo := if addrNum ip < 0xffff * 2 ^ 32 + 2 ^ 31 then srcLow else srcHigh

theorem cut_halves {ip : IP} (hw : Walked cutTable.version ip) :
    ∃ row ∈ cutTable.ips, Covers row.cidr (addrNum ip) ∧ infoOf cutTable.fields row.values = halfInfo ip := by
  have h := hw.inFam
  have e : dumpLen cutTable.version = 4 := by decide +kernel
  rw [e] at h
  have h1 := h.2.1
  have h2 := h.2.2
  unfold famLo at h1
  unfold famEnd at h2
  simp only [if_true] at h1 h2
  have a0 : netLo (cutTable.ips[0]'(by decide)).cidr = 0xffff * 2 ^ 32 + 2 ^ 31 ∧ netEnd (cutTable.ips[0]'(by decide)).cidr = 0x10000 * 2 ^ 32 := by
    decide +kernel
  have a1 : netLo (cutTable.ips[1]'(by decide)).cidr = 0xffff * 2 ^ 32 + 2 ^ 30 ∧ netEnd (cutTable.ips[1]'(by decide)).cidr = 0xffff * 2 ^ 32 + 2 ^ 31 := by
    decide +kernel
  have a2 : netLo (cutTable.ips[2]'(by decide)).cidr = 0xffff * 2 ^ 32 ∧ netEnd (cutTable.ips[2]'(by decide)).cidr = 0xffff * 2 ^ 32 + 2 ^ 30 := by
    decide +kernel
  unfold halfInfo
  rcases Nat.lt_or_ge (addrNum ip) (0xffff * 2 ^ 32 + 2 ^ 31) with h | h
  · rw [if_pos h]
    rcases Nat.lt_or_ge (addrNum ip) (0xffff * 2 ^ 32 + 2 ^ 30) with h' | h'
    · exact ⟨_, List.getElem_mem (by decide : 2 < cutTable.ips.length), by unfold Covers; rw [a2.1, a2.2]; omega, by decide +kernel⟩
    · exact ⟨_, List.getElem_mem (by decide : 1 < cutTable.ips.length), by unfold Covers; rw [a1.1, a1.2]; omega, by decide +kernel⟩
  · rw [if_neg (by omega)]
    exact ⟨_, List.getElem_mem (by decide : 0 < cutTable.ips.length), by unfold Covers; rw [a0.1, a0.2]; omega, by decide +kernel⟩

theorem src_halves' {ip : IP} (hw : Walked srcTable.version ip) :
    ∃ row ∈ srcTable.ips, Covers row.cidr (addrNum ip) ∧ infoOf srcTable.fields row.values = halfInfo ip := by
  unfold halfInfo
  rcases src_halves hw with ⟨row, h1, h2, h3, h4⟩ | ⟨row, h1, h2, h3, h4⟩
  · have h2' := h2
    rw [h4] at h2
    unfold Covers at h2
    rw [show netEnd ⟨[0, 0, 0, 0], [128, 0, 0, 0]⟩ = 0xffff * 2 ^ 32 + 2 ^ 31 by decide +kernel] at h2
    exact ⟨row, h1, h2', by rw [if_pos h2.2]; exact h3⟩
  · have h2' := h2
    rw [h4] at h2
    unfold Covers at h2
    rw [show netLo ⟨[128, 0, 0, 0], [128, 0, 0, 0]⟩ = 0xffff * 2 ^ 32 + 2 ^ 31 by decide +kernel] at h2
    exact ⟨row, h1, h2', by rw [if_neg (by omega)]; exact h3⟩

/-- A packed IPv4 table whose rows answer as `halfInfo` says is convertible. -/
theorem halves_convertible_in (w : World) (fuel : Nat) (T : IpData)
    (hm : Ipdb.MetaRoundTrip w.encMeta w.decMeta (Ipdb.buildMeta w.now T.version T.fields))
    (hm' : ∀ v : VersionInfo, v.version = gs "v" → v.extraInfo = [] →
      Ipdb.MetaRoundTrip w.encMeta w.decMeta (Ipdb.buildMeta w.now v sevenFields))
    (hok : RowsOK T) (hv : ValuesOK T) (hd : DisjointRows (rowsOf T))
    (hcols : 2 ≤ T.fields.length) (h4 : T.version.ipType = IpV4) (hext : T.version.extraInfo = []) (hver : T.version.version = gs "v")
    (hsize : (match Ipdb.pack w.encMeta w.now T with | .ok b => decide (b.length < 2 ^ 32) | _ => true) = true)
    (hrow : ∀ ip, Walked T.version ip → ∃ row ∈ T.ips, Covers row.cidr (addrNum ip) ∧ infoOf T.fields row.values = halfInfo ip) :
    ∃ bytes Q, Ipdb.pack w.encMeta w.now T = .ok bytes ∧
      Convertible w fuel (fun _ => [gs "电信"]) (fun _ => true) (fun n => if n = gs "a.ipdb" then some bytes else none) srcArgs Q ∧
      SameRelease ⟨IpV4, 0, 0, gs "v", [], []⟩ (OpenDb.versionInfo w (.ipdb Q)) ∧
      (∀ ip i, Family w (.ipdb Q) ip → (Says (.ipdb Q) ip i ↔ i = halfInfo ip)) := by
  obtain ⟨bytes, e1, k1⟩ := packed_ipdb (fuel := fuel) hok hv hd hcols hm
  rw [e1] at hsize
  have hl := of_decide_eq_true hsize
  obtain ⟨Q, hnew', hfields, htype, hex, hvs, hq⟩ := k1 hl
  have hnew := hnew' (fun n => if n = gs "a.ipdb" then some bytes else none) (gs "a.ipdb") (if_pos rfl) (by decide +kernel)
  have htype := htype (by rw [h4]; decide)
  rw [h4] at htype
  have hfam : ∀ ip, Family w (.ipdb Q) ip ↔ Walked T.version ip := by
    intro ip
    have : dumpLen (OpenDb.versionInfo w (.ipdb Q)) = dumpLen T.version := by
      unfold dumpLen VersionInfo.IsIpV6
      rw [htype, h4]
    unfold Family Walked
    rw [this]
  have hv6 : ¬ (OpenDb.versionInfo w (.ipdb Q)).IsIpV6 = true := by
    unfold VersionInfo.IsIpV6; rw [htype]; decide
  have hsays : ∀ ip i, Family w (.ipdb Q) ip → (Says (.ipdb Q) ip i ↔ i = halfInfo ip) := by
    intro ip i hf
    have hw := (hfam ip).mp hf
    obtain ⟨row, h1, h2, h3⟩ := hrow ip hw
    have := hq ip row hw.1 hw.supports h1 h2
    rw [h3] at this
    constructor
    · rintro ⟨m, h⟩
      rw [h] at this
      exact (Prod.mk.inj (Res.ok.inj this)).1
    · rintro rfl
      exact ⟨_, this⟩
  have honly : ∀ ip, halfInfo ip = srcLow ∨ halfInfo ip = srcHigh := by
    intro ip; unfold halfInfo; split
    · exact .inl rfl
    · exact .inr rfl
  have c1 : (cleaned srcLow).isp = gs "电信" := by decide +kernel
  have c2 : (cleaned srcHigh).isp ∉ mainCarriers := by decide +kernel
  have hw1 : Family w (.ipdb Q) [1, 2, 3, 4] := (hfam _).mpr (by
    unfold Walked
    rw [show dumpLen T.version = 4 by unfold dumpLen VersionInfo.IsIpV6; rw [h4]; decide]
    decide +kernel)
  refine ⟨bytes, Q, e1, ?_, ⟨htype, by rw [hvs, hver, if_neg (by decide +kernel)], by rw [hex, hext]⟩, hsays⟩
  exact
    { opened := hnew
      kind := by decide +kernel
      columns := by rw [hfields]; exact hcols
      total := fun ip hf => ⟨_, (hsays ip _ hf).mpr rfl⟩
      crosses := fun h => absurd h hv6
      rule := rfl
      line := rfl
      plain := fun ip i hf h => by
        rw [(hsays ip i hf).mp h]
        rcases honly ip with e | e <;> rw [e] <;> decide +kernel
      mixed := fun h => absurd h hv6
      orders := fun k => ⟨by simp, fun m => ⟨fun h => by
          rw [List.mem_singleton.mp h]
          refine ⟨by decide +kernel, srcLow, ⟨_, hw1, (hsays _ _ hw1).mpr ?_⟩, c1⟩
          unfold halfInfo
          rw [if_pos (by decide +kernel)], fun ⟨hm, i, ⟨ip, hf, hi⟩, h⟩ => by
          rw [(hsays ip i hf).mp hi] at h
          rcases honly ip with e | e
          · rw [e, c1] at h; rw [← h]; exact List.mem_singleton.mpr rfl
          · rw [e] at h; rw [← h] at hm; exact absurd hm c2⟩⟩
      single := by decide +kernel
      target := by decide +kernel
      creates := rfl
      codec := hm' _ (by rw [hvs, hver, if_neg (by decide +kernel)]) (by rw [hex, hext]) }

theorem halves_convertible (fuel : Nat) (T : IpData) (hok : RowsOK T) (hv : ValuesOK T) (hd : DisjointRows (rowsOf T))
    (hcols : 2 ≤ T.fields.length) (h4 : T.version.ipType = IpV4) (hext : T.version.extraInfo = []) (hver : T.version.version = gs "v")
    (hsize : (match Ipdb.pack exWorld.encMeta exWorld.now T with | .ok b => decide (b.length < 2 ^ 32) | _ => true) = true)
    (hrow : ∀ ip, Walked T.version ip → ∃ row ∈ T.ips, Covers row.cidr (addrNum ip) ∧ infoOf T.fields row.values = halfInfo ip) :
    ∃ bytes Q, Ipdb.pack exWorld.encMeta exWorld.now T = .ok bytes ∧
      Convertible exWorld fuel (fun _ => [gs "电信"]) (fun _ => true) (fun n => if n = gs "a.ipdb" then some bytes else none) srcArgs Q ∧
      SameRelease ⟨IpV4, 0, 0, gs "v", [], []⟩ (OpenDb.versionInfo exWorld (.ipdb Q)) ∧
      (∀ ip i, Family exWorld (.ipdb Q) ip → (Says (.ipdb Q) ip i ↔ i = halfInfo ip)) :=
  halves_convertible_in exWorld fuel T (ex_meta _ _) (fun v _ _ => ex_meta v _) hok hv hd hcols h4 hext hver hsize hrow

/-- C117 on the example: the table with two rows and the one with three rows in another order, packed, are different files
that the converter turns into the same bytes. -/
theorem ex_same_bytes (fuel : Nat) (hfuel : fuel ≥ 2 ^ 128) : ∃ b1 b2 b,
    Ipdb.pack exWorld.encMeta exWorld.now srcTable = .ok b1 ∧ Ipdb.pack exWorld.encMeta exWorld.now cutTable = .ok b2 ∧ b1 ≠ b2 ∧
    (converter exWorld fuel (fun _ => [gs "电信"]) (fun _ => true) (fun n => if n = gs "a.ipdb" then some b1 else none) srcArgs).bind (fun r => r.1 (gs "b.ipdb")) = some b ∧
    (converter exWorld fuel (fun _ => [gs "电信"]) (fun _ => true) (fun n => if n = gs "a.ipdb" then some b2 else none) srcArgs).bind (fun r => r.1 (gs "b.ipdb")) = some b := by
  obtain ⟨b1, Q1, e1, h1, v1, s1⟩ := halves_convertible fuel srcTable (by decide +kernel) (by decide +kernel) (by decide +kernel) (by decide) rfl rfl rfl
    (by decide +kernel) (fun ip h => src_halves' h)
  obtain ⟨b2, Q2, e2, h2, v2, s2⟩ := halves_convertible fuel cutTable (by decide +kernel) (by decide +kernel) (by decide +kernel) (by decide) rfl rfl rfl
    (by decide +kernel) (fun ip h => cut_halves h)
  have hfam : ∀ ip, Family exWorld (.ipdb Q1) ip → Family exWorld (.ipdb Q2) ip := by
    intro ip h
    have e : dumpLen (OpenDb.versionInfo exWorld (.ipdb Q2)) = dumpLen (OpenDb.versionInfo exWorld (.ipdb Q1)) := by
      unfold dumpLen VersionInfo.IsIpV6
      rw [v1.1, v2.1]
    unfold Family Walked at h ⊢
    rw [e]; exact h
  have hone : OneCarrier (AnswersOf exWorld Q1) := by
    have c1 : (cleaned srcLow).isp = gs "电信" := by decide +kernel
    have c2 : (cleaned srcHigh).isp ∉ mainCarriers := by decide +kernel
    have key : ∀ s m, Carries (AnswersOf exWorld Q1) s m → m = gs "电信" := by
      rintro s m ⟨hm, i, ⟨ip, hf, hi⟩, h, _⟩
      rw [(s1 ip i hf).mp hi] at h
      unfold halfInfo at h
      split at h
      · rw [c1] at h; exact h.symm
      · rw [← h] at hm; exact absurd hm c2
    intro i _ _ m m' g g'
    rw [key _ m g, key _ m' g']
  obtain ⟨b, r1, r2⟩ := C117_same_bytes hfuel hfuel h1 h2 ⟨v2.1.trans v1.1.symm, v2.2.1.trans v1.2.1.symm, v2.2.2.trans v1.2.2.symm⟩
    (fun ip i hf => (s1 ip i hf).trans (s2 ip i (hfam ip hf)).symm) hone
  have hset : ∀ b' : Bytes, (Fs.set (fun n => if n = gs "a.ipdb" then some b' else none) srcArgs.output b) (gs "b.ipdb") = some b := by
    intro b'
    unfold Fs.set
    exact if_pos rfl
  have hne : b1 ≠ b2 := by
    intro h
    have : Ipdb.pack exWorld.encMeta exWorld.now srcTable = Ipdb.pack exWorld.encMeta exWorld.now cutTable := by rw [e1, e2, h]
    exact absurd this (by decide +kernel)
  refine ⟨b1, b2, b, e1, e2, hne, ?_, ?_⟩
  · rw [r1, Option.bind_some]; exact hset b1
  · rw [r2, Option.bind_some]; exact hset b2

/-! ## Tables -/

/-- The rows of `exText`, the first one cut in two. -/
def cutText : Str := gs "#### scan dump now ####\n#### {v}\n#### country,province,city,isp,asn,continent,district\n10.0.0.0/10\t中国,浙江省,杭州,电信,4134,AS,\n10.64.0.0/10\t中国,浙江省,杭州,电信,4134,AS,\n10.128.0.0/9\t中国,浙江,杭州,鹏博士,4134,AS,\n2001:db8::/32\t美国,,,,15169,NA,\n"

def cutFs : Fs := fun n => if n = gs "a.scan" then some cutText else none

def cutRows : IpData :=
  { exTable with ips := ⟨⟨[10, 0, 0, 0], [255, 192, 0, 0]⟩, [gs "中国", gs "浙江省", gs "杭州", gs "电信", gs "4134", gs "AS", []]⟩ ::
    ⟨⟨[10, 64, 0, 0], [255, 192, 0, 0]⟩, [gs "中国", gs "浙江省", gs "杭州", gs "电信", gs "4134", gs "AS", []]⟩ :: exTable.ips.tail }

theorem cut_dump : Plain.dump exWorld.decVersion cutText (Export.ParseRule (ruleText exArgs.rule)) = .ok cutRows := by
  decide +kernel

theorem cut_dumps (fuel : Nat) : Dumps exWorld fuel cutFs exArgs id cutRows := by
  refine ⟨cutText, fun b e => withSlices id (some (Plain.dump exWorld.decVersion b e)), if_pos rfl, ?_, ?_⟩
  · have he : pathExt exArgs.input = gs ".scan" := by decide +kernel
    rw [he]; rfl
  · simp only []
    rw [cut_dump]; rfl

theorem cut_table : Table cutRows where
  nodup := by decide +kernel
  province := by decide +kernel
  usable := ⟨3, 4, by decide +kernel, by decide +kernel, by decide, by decide⟩
  continent := by decide +kernel
  rows := by decide +kernel
  wf := by decide +kernel
  disjoint := by decide +kernel
  len := by decide +kernel
  modest := by decide +kernel
  notUniform := .inl ⟨0, by decide, by decide +kernel⟩

theorem cut_orders : CarrierOrders NormalizedMap cutRows (fun _ => exKeys) := by
  intro k
  refine ⟨by simp [exKeys], fun m => ⟨fun h => ?_, fun ⟨hm, y, hy, h⟩ => ?_⟩⟩
  · rw [List.mem_singleton.mp h]
    decide +kernel
  · have hall : ∀ y ∈ cutRows.ips.map (normRow NormalizedMap cutRows.fields),
        fieldVal cutRows.fields fISP y ∈ mainCarriers.map some → fieldVal cutRows.fields fISP y = some (gs "电信") := by decide +kernel
    have := hall y hy (by rw [h]; exact List.mem_map.mpr ⟨m, hm, rfl⟩)
    rw [h] at this; injection this with this
    rw [this]; exact List.mem_singleton.mpr rfl

theorem ex_oneCarrier : OneCarrierTable exTable := by
  have key : ∀ s m, CarrierOf exTable.fields (exTable.ips.map (normRow NormalizedMap exTable.fields)) s m → m = gs "电信" := by
    rintro s m ⟨hm, y, hy, h, _⟩
    have hall : ∀ y ∈ exTable.ips.map (normRow NormalizedMap exTable.fields),
        fieldVal exTable.fields fISP y ∈ mainCarriers.map some → fieldVal exTable.fields fISP y = some (gs "电信") := by decide +kernel
    have := hall y hy (by rw [h]; exact List.mem_map.mpr ⟨m, hm, rfl⟩)
    rw [h] at this; injection this
  intro _ _ _ _ _ _ _ m m' g g'
  rw [key _ m g, key _ m' g']

theorem cut_same (y : Nat) : firstMatch exTable.ips y = firstMatch cutRows.ips y := by
  have n1 : netLo ⟨[10, 0, 0, 0], [255, 128, 0, 0]⟩ = 0xffff * 2 ^ 32 + 10 * 2 ^ 24 ∧ netEnd ⟨[10, 0, 0, 0], [255, 128, 0, 0]⟩ = 0xffff * 2 ^ 32 + 10 * 2 ^ 24 + 2 ^ 23 := by decide +kernel
  have n2 : netLo ⟨[10, 0, 0, 0], [255, 192, 0, 0]⟩ = 0xffff * 2 ^ 32 + 10 * 2 ^ 24 ∧ netEnd ⟨[10, 0, 0, 0], [255, 192, 0, 0]⟩ = 0xffff * 2 ^ 32 + 10 * 2 ^ 24 + 2 ^ 22 := by decide +kernel
  have n3 : netLo ⟨[10, 64, 0, 0], [255, 192, 0, 0]⟩ = 0xffff * 2 ^ 32 + 10 * 2 ^ 24 + 2 ^ 22 ∧ netEnd ⟨[10, 64, 0, 0], [255, 192, 0, 0]⟩ = 0xffff * 2 ^ 32 + 10 * 2 ^ 24 + 2 ^ 23 := by decide +kernel
  unfold cutRows exTable firstMatch Covers
  simp only [List.find?_cons, List.tail_cons, n1.1, n1.2, n2.1, n2.2, n3.1, n3.2]
  by_cases h1 : 0xffff * 2 ^ 32 + 10 * 2 ^ 24 ≤ y ∧ y < 0xffff * 2 ^ 32 + 10 * 2 ^ 24 + 2 ^ 22
  · rw [decide_eq_true h1, decide_eq_true (by omega : 0xffff * 2 ^ 32 + 10 * 2 ^ 24 ≤ y ∧ y < 0xffff * 2 ^ 32 + 10 * 2 ^ 24 + 2 ^ 23)]
    rfl
  · by_cases h2 : 0xffff * 2 ^ 32 + 10 * 2 ^ 24 + 2 ^ 22 ≤ y ∧ y < 0xffff * 2 ^ 32 + 10 * 2 ^ 24 + 2 ^ 23
    · rw [decide_eq_false h1, decide_eq_true h2, decide_eq_true (by omega : 0xffff * 2 ^ 32 + 10 * 2 ^ 24 ≤ y ∧ y < 0xffff * 2 ^ 32 + 10 * 2 ^ 24 + 2 ^ 23)]
      rfl
    · rw [decide_eq_false h1, decide_eq_false h2, decide_eq_false (by omega : ¬ (0xffff * 2 ^ 32 + 10 * 2 ^ 24 ≤ y ∧ y < 0xffff * 2 ^ 32 + 10 * 2 ^ 24 + 2 ^ 23))]

/-- C117 for tables on the example. -/
theorem ex_same_tables : ∃ b, converter exWorld 0 (fun _ => exKeys) (fun _ => true) exFs exArgs = some (exFs.set exArgs.output b, .ok ()) ∧
    converter exWorld 0 (fun _ => exKeys) (fun _ => true) cutFs exArgs = some (cutFs.set exArgs.output b, .ok ()) :=
  C117_tables exWorld 0 0 _ _ _ _ exFs cutFs exArgs exArgs id id exTable cutRows (ex_dumps 0) (cut_dumps 0) ex_table cut_table
    (by unfold Ascending; decide +kernel) (by unfold Ascending; decide +kernel) rfl rfl ex_orders cut_orders (by decide +kernel) (by decide +kernel)
    (by decide +kernel) (by decide +kernel) rfl rfl (ex_meta _ _) rfl ⟨rfl, rfl, rfl⟩ ex_oneCarrier cut_same

end Uip.Program
