import Verif.Props.ConvertedReaders
import Verif.Props.CanonicalExample
import Verif.Props.GoWorldExample
/-!
# C119 on concrete files
-/
namespace Uip.Program
open Uip Uip.Spec Uip.Operate
open Uip.Export (sevenFields)
open Uip.Dump (Walked)

theorem ex_texts : TextValues exTable := by
  intro r hr v hv
  have : ∀ r ∈ exTable.ips, ∀ v ∈ r.values, Json.repair v = v := by decide +kernel
  exact (Json.repair_eq_iff v).mp (this r hr v hv)

theorem ex_metaInt (v : VersionInfo) (fs : List Str) :
    Ipdb.MetaRoundTripInt exWorld.encMeta Ipdb.decMeta (Ipdb.buildMeta exWorld.now v fs) := fun _ _ _ _ => Ipdb.dec_encMeta _

theorem ex_size31 : exSize.all (· < 2 ^ 31) = true := by decide +kernel

theorem ex_settled_packed (x' : IpRaw)
    (h : Settled exTable ⟨⟨[10, 128, 0, 0], [255, 128, 0, 0]⟩, [gs "中国", gs "浙江", gs "杭州", gs "鹏博士", gs "4134", gs "AS", []]⟩ x') :
    attr (asnNames ++ lineNames) (addField exTable.fields fDistrict) (packedValues exTable x'.values) = gs "4134" ∧
    spellCode (attr continentNames (addField exTable.fields fDistrict) (packedValues exTable x'.values)) = gs "亚洲" := by
  rcases h with ⟨u, s, m, h1, h2, h3, ⟨hm, y, hy, h4, h5⟩, rfl⟩ | ⟨_, h⟩
  · have : m = gs "电信" := by
      have hall : ∀ y ∈ exTable.ips.map (normRow NormalizedMap exTable.fields),
          fieldVal exTable.fields fISP y ∈ mainCarriers.map some → fieldVal exTable.fields fISP y = some (gs "电信") := by decide +kernel
      have := hall y hy (by rw [h4]; exact List.mem_map.mpr ⟨m, hm, rfl⟩)
      rw [h4] at this; injection this
    rw [this]
    refine ⟨?_, ?_⟩ <;> decide +kernel
  · refine absurd ⟨gs "鹏博士", gs "4134", gs "电信", by decide +kernel, by decide +kernel, by decide +kernel, ⟨by decide +kernel, ?_⟩⟩ h
    decide +kernel

/-- C119 on the `.scan` example of C64: for 10.200.0.1 the Java reader answers with the AS number as the line, too, the Rust
reader (the continent is stored as the code AS) as the Go reader does. -/
theorem ex_converted_readers : ∃ b j r ja,
    converter exWorld 0 (fun _ => exKeys) (fun _ => true) exFs exArgs = some (exFs.set (gs "b.ipdb") b, .ok ()) ∧
    Java.create Ipdb.decMeta id [[8, 8, 8, 8]] b = .ok j ∧ Rust.Reader Ipdb.decMeta b = .ok r ∧
    Java.query id j [10, 200, 0, 1] = .ok ja ∧
    javaTexts ja = ⟨gs "中国", gs "华东", gs "浙江", gs "杭州", gs "4134", gs "电信", gs "亚洲", gs "4134"⟩ ∧
    Rust.query id r [10, 200, 0, 1] = .ok ⟨gs "中国", gs "华东", gs "浙江", gs "杭州", gs "4134", gs "电信", gs "亚洲", []⟩ := by
  obtain ⟨b, h1, h2⟩ := C119_table exWorld 0 (fun _ => exKeys) (fun _ => true) exFs exArgs id exTable (ex_dumps 0)
    ex_table ex_texts rfl ex_orders (by decide +kernel) (by decide +kernel) rfl (ex_meta _ _) (decJ := Ipdb.decMeta) (decR := Ipdb.decMeta)
    (utf8J := id) (utf8R := id) (ex_metaInt _ _) (ex_metaInt _ _) (fun _ => rfl) (fun _ => rfl) [[8, 8, 8, 8]]
  have hb : b.length < 2 ^ 31 := by
    have := ex_size31
    unfold exSize at this
    rw [h1] at this
    simp only [Option.bind_some, show exFs.set exArgs.output b exArgs.output = some b from if_pos rfl, Option.map_some, Option.all_some,
      decide_eq_true_eq] at this
    exact this
  obtain ⟨Q, j, r, _, k1, k2, k3, _⟩ := h2 hb
  obtain ⟨x', n, ja, hs, _, g2, g3, g4⟩ := k3 [10, 200, 0, 1] ⟨⟨[10, 128, 0, 0], [255, 128, 0, 0]⟩, [gs "中国", gs "浙江", gs "杭州", gs "鹏博士", gs "4134", gs "AS", []]⟩
    (by decide +kernel) (by decide +kernel) (by decide +kernel) (by decide +kernel)
  obtain ⟨e1, e2⟩ := ex_settled_packed x' hs
  refine ⟨b, j, r, ja, h1, k1, k2, g2, ?_, ?_⟩
  · rw [g3, e1, ex_settled x' hs]
  · rw [g4, e2, ex_settled x' hs]

theorem half_texts (ip : IP) : Textual (halfInfo ip) := by
  have h1 : ∀ v ∈ vals srcLow ++ vals srcHigh, Json.repair v = v := by decide +kernel
  intro v hv
  refine (Json.repair_eq_iff v).mp (h1 v ?_)
  unfold halfInfo at hv
  split at hv
  · exact List.mem_append_left _ hv
  · exact List.mem_append_right _ hv

/-- C119 on the `.ipdb` example of C95: the Rust reader answers 200.0.0.1 without a continent, the Go and the Java reader with it. -/
theorem ex_continent_lost (fuel : Nat) (hfuel : fuel ≥ 2 ^ 128) : ∃ b b1,
    Ipdb.pack exWorld.encMeta exWorld.now srcTable = .ok b ∧
    converter exWorld fuel (fun _ => [gs "电信"]) (fun _ => true) (fun n => if n = gs "a.ipdb" then some b else none) srcArgs =
      some (Fs.set (fun n => if n = gs "a.ipdb" then some b else none) (gs "b.ipdb") b1, .ok ()) ∧
    (b1.length < 2 ^ 31 → ∃ Q j r o ja, Opens exWorld fuel b1 Q ∧ Java.create Ipdb.decMeta id [] b1 = .ok j ∧ Rust.Reader Ipdb.decMeta b1 = .ok r ∧
      Says (.ipdb Q) [200, 0, 0, 1] o ∧ o.continent = gs "北美洲" ∧
      Java.query id j [200, 0, 0, 1] = .ok ja ∧ ja.continent.getD [] = gs "北美洲" ∧
      Rust.query id r [200, 0, 0, 1] = .ok { o with continent := [] }) := by
  obtain ⟨b, Q, e1, h, v1, s1⟩ := halves_convertible fuel srcTable (by decide +kernel) (by decide +kernel) (by decide +kernel) (by decide) rfl rfl rfl
    (by decide +kernel) (fun ip h => src_halves' h)
  have hd4 : dumpLen (OpenDb.versionInfo exWorld (.ipdb Q)) = 4 := by
    unfold dumpLen VersionInfo.IsIpV6; rw [v1.1]; decide
  have hw2 : Family exWorld (.ipdb Q) [200, 0, 0, 1] := by unfold Family Walked; rw [hd4]; decide +kernel
  have hi2 : Says (.ipdb Q) [200, 0, 0, 1] srcHigh := (s1 _ _ hw2).mpr (by unfold halfInfo; rw [if_neg (by decide +kernel)])
  obtain ⟨b1, k1, k2⟩ := C119_ipdb h hfuel (fun ip i hf hs => by rw [(s1 ip i hf).mp hs]; exact half_texts ip) (decJ := Ipdb.decMeta)
    (decR := Ipdb.decMeta) (utf8J := id) (utf8R := id) (ex_metaInt _ _) (ex_metaInt _ _) (fun _ => rfl) (fun _ => rfl) []
  refine ⟨b, b1, e1, k1, fun hl => ?_⟩
  obtain ⟨Q', j, r, g1, g2, g3, g4⟩ := k2 hl
  obtain ⟨o, ja, f1, f2, f3, f4, f5⟩ := g4 _ _ hw2 (by unfold TakesLen; rw [v1.1]; decide) hi2
  have hc : o.continent = gs "北美洲" := by
    rw [f1.2.2.2.2.1]; decide +kernel
  refine ⟨Q', j, r, o, ja, g1, g2, g3, f2, hc, f3, ?_, ?_⟩
  · have := congrArg IpInfo.continent f4
    exact this.trans hc
  · rw [f5]
    unfold rustOf
    rw [show spellCode srcHigh.continent = [] by decide +kernel]

/-- The hypotheses of C119 with Go's JSON are met: the same file, in a program with Go's JSON, for any Java and Rust library
that reads ordinary metadata. -/
theorem goEx_converted_readers (fuel : Nat) (hfuel : fuel ≥ 2 ^ 128) {decJ decR : Bytes → Option Ipdb.MetaData}
    (hJ : JsonText.ReadsOrdinary decJ) (hR : JsonText.ReadsOrdinary decR) : ∃ b b1,
    Ipdb.pack goExWorld.encMeta goExWorld.now srcTable = .ok b ∧
    converter goExWorld fuel (fun _ => [gs "电信"]) (fun _ => true) (fun n => if n = gs "a.ipdb" then some b else none) srcArgs =
      some (Fs.set (fun n => if n = gs "a.ipdb" then some b else none) (gs "b.ipdb") b1, .ok ()) ∧
    (b1.length < 2 ^ 31 → ∃ Q j r o ja, Opens goExWorld fuel b1 Q ∧ Java.create decJ id [] b1 = .ok j ∧ Rust.Reader decR b1 = .ok r ∧
      Says (.ipdb Q) [200, 0, 0, 1] o ∧ o.continent = gs "北美洲" ∧ o.country = gs "美国" ∧
      Java.query id j [200, 0, 0, 1] = .ok ja ∧ javaTexts ja = { o with line := o.asn } ∧
      Rust.query id r [200, 0, 0, 1] = .ok { o with continent := [] }) := by
  obtain ⟨b, Q, e1, h, v1, s1⟩ := halves_convertible_in goExWorld fuel srcTable ((goMeta goEx_world _ _).mpr src_texts)
    (fun v h1 h2 => (goMeta goEx_world _ _).mpr ⟨by rw [h1]; exact Json.isText_gs _, (by rw [h2]; exact fun s hs => by cases hs), seven_texts⟩)
    (by decide +kernel) (by decide +kernel) (by decide +kernel) (by decide) rfl rfl rfl
    (by decide +kernel) (fun ip h => src_halves' h)
  have hd4 : dumpLen (OpenDb.versionInfo goExWorld (.ipdb Q)) = 4 := by
    unfold dumpLen VersionInfo.IsIpV6; rw [v1.1]; decide
  have hw2 : Family goExWorld (.ipdb Q) [200, 0, 0, 1] := by unfold Family Walked; rw [hd4]; decide +kernel
  have hi2 : Says (.ipdb Q) [200, 0, 0, 1] srcHigh := (s1 _ _ hw2).mpr (by unfold halfInfo; rw [if_neg (by decide +kernel)])
  obtain ⟨b1, k1, k2⟩ := C119_json h hfuel goEx_world (by unfold JsonText.Fits32; decide +kernel) (fun ip i hf hs => by rw [(s1 ip i hf).mp hs]; exact half_texts ip)
    hJ hR (utf8J := id) (utf8R := id) (fun _ => rfl) (fun _ => rfl) []
  refine ⟨b, b1, e1, k1, fun hl => ?_⟩
  obtain ⟨Q', j, r, g1, g2, g3, g4⟩ := k2 hl
  obtain ⟨o, ja, f1, f2, f3, f4, f5⟩ := g4 _ _ hw2 (by unfold TakesLen; rw [v1.1]; decide) hi2
  have hc : o.continent = gs "北美洲" := by
    rw [f1.2.2.2.2.1]; decide +kernel
  have hk : o.country = gs "美国" := by
    rw [f1.1]; decide +kernel
  refine ⟨Q', j, r, o, ja, g1, g2, g3, f2, hc, hk, f3, f4, ?_⟩
  rw [f5]
  unfold rustOf
  rw [show spellCode srcHigh.continent = [] by decide +kernel]

end Uip.Program
