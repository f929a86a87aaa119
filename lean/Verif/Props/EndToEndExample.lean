import Verif.Props.EndToEnd
import Verif.Props.ConverterExample
/-!
# Concrete conversions from answers to answers (C95, C96): the hypotheses are met
-/
namespace Uip.Program
open Uip Uip.Spec Uip.Operate
open Uip.Export (sevenFields)
open Uip.Dump (Walked)

/-- The lower half of the IPv4 space is in China, with a main carrier and no AS number; the upper half is in the USA. -/
def srcTable : IpData :=
  { fields := [gs "country", gs "province", gs "city", gs "isp", gs "continent"]
    version := ⟨IpV4, 2, 0, gs "v", [], []⟩
    ips := [
      ⟨⟨[0, 0, 0, 0], [128, 0, 0, 0]⟩, [gs "中国", gs "浙江省", gs "杭州", gs "电信", gs "AS"]⟩,
      ⟨⟨[128, 0, 0, 0], [128, 0, 0, 0]⟩, [gs "美国", gs "加州", [], gs "comcast", gs "NA"]⟩] }

/-- What the packed table answers. -/
def srcLow : IpInfo := ⟨gs "中国", [], gs "浙江省", gs "杭州", [], gs "电信", gs "亚洲", []⟩
def srcHigh : IpInfo := ⟨gs "美国", [], gs "加州", [], [], gs "comcast", gs "北美洲", []⟩

theorem src_halves {ip : IP} (hw : Walked srcTable.version ip) :
    (∃ row ∈ srcTable.ips, Covers row.cidr (addrNum ip) ∧ infoOf srcTable.fields row.values = srcLow ∧ row.cidr = ⟨[0, 0, 0, 0], [128, 0, 0, 0]⟩) ∨
    ∃ row ∈ srcTable.ips, Covers row.cidr (addrNum ip) ∧ infoOf srcTable.fields row.values = srcHigh ∧ row.cidr = ⟨[128, 0, 0, 0], [128, 0, 0, 0]⟩ := by
  have h := hw.inFam
  have e : dumpLen srcTable.version = 4 := by decide +kernel
  rw [e] at h
  have h1 := h.2.1
  have h2 := h.2.2
  unfold famLo at h1
  unfold famEnd at h2
  simp only [if_true] at h1 h2
  have a1 : netLo (srcTable.ips[0]'(by decide)).cidr = 0xffff * 2 ^ 32 ∧ netEnd (srcTable.ips[0]'(by decide)).cidr = 0xffff * 2 ^ 32 + 2 ^ 31 := by
    decide +kernel
  have a2 : netLo (srcTable.ips[1]'(by decide)).cidr = 0xffff * 2 ^ 32 + 2 ^ 31 ∧ netEnd (srcTable.ips[1]'(by decide)).cidr = 0x10000 * 2 ^ 32 := by
    decide +kernel
  rcases Nat.lt_or_ge (addrNum ip) (0xffff * 2 ^ 32 + 2 ^ 31) with h | h
  · exact .inl ⟨_, List.getElem_mem (by decide : 0 < srcTable.ips.length), by unfold Covers; rw [a1.1, a1.2]; omega, by decide +kernel, rfl⟩
  · exact .inr ⟨_, List.getElem_mem (by decide : 1 < srcTable.ips.length), by unfold Covers; rw [a2.1, a2.2]; omega, by decide +kernel, rfl⟩

def srcArgs : Args := ⟨gs "a.ipdb", gs "b.ipdb", gs "default", [], false⟩

/-- The table, packed and opened by the converter's query library. -/
theorem src_opened (fuel : Nat) : ∃ bytes Q, Ipdb.pack exWorld.encMeta exWorld.now srcTable = .ok bytes ∧
    NewDb exWorld (converterFormats exWorld fuel) (fun n => if n = gs "a.ipdb" then some bytes else none) srcArgs.input = .ok (.ipdb Q) ∧
    Q.r.md.fields.length = 5 ∧ (OpenDb.versionInfo exWorld (.ipdb Q)).ipType = IpV4 ∧
    ∀ ip, Walked srcTable.version ip → Says (.ipdb Q) ip (if addrNum ip < 0xffff * 2 ^ 32 + 2 ^ 31 then srcLow else srcHigh) := by
  have hok : RowsOK srcTable := by decide +kernel
  have hj := ex_meta srcTable.version srcTable.fields
  obtain ⟨bytes, e1, k1⟩ := opened_packed (knows_converter exWorld fuel) hok (by decide +kernel) (by decide +kernel) (by decide) hj
  obtain ⟨b2, e2, k2⟩ := Ipdb.C20_version exWorld.fmtDate hok hj
  obtain ⟨b3, e3, k3⟩ := Ipdb.opens hok hj
  rw [e1] at e2 e3
  obtain rfl := Res.ok.inj e2
  obtain rfl := Res.ok.inj e3
  have hlen : ∀ b, Ipdb.pack exWorld.encMeta exWorld.now srcTable = .ok b → b.length < 2 ^ 32 := by
    have : (match Ipdb.pack exWorld.encMeta exWorld.now srcTable with | .ok b => decide (b.length < 2 ^ 32) | _ => true) = true := by decide +kernel
    intro b hb
    rw [hb] at this
    exact of_decide_eq_true this
  have hl := hlen _ e1
  obtain ⟨q, a1, a2, a3, a4⟩ := k1 hl
  obtain ⟨r, b1, b2, _⟩ := k2 hl
  obtain ⟨r', c1, _, c2⟩ := k3 hl
  rw [b1] at c1
  obtain rfl := Res.ok.inj c1
  have hnew : NewDb exWorld (converterFormats exWorld fuel) (fun n => if n = gs "a.ipdb" then some bytes else none) srcArgs.input = .ok q := by
    unfold NewDb
    rw [show srcArgs.input = gs "a.ipdb" from rfl]
    simp only [if_pos]
    rw [show pathExt (gs "a.ipdb") = gs ".ipdb" by decide +kernel]
    exact a1
  obtain ⟨b', r', Q, g1, g2, rfl, g4, g5⟩ := open_ipdb (by decide +kernel) hnew
  have hb' : bytes = b' := by
    rw [show srcArgs.input = gs "a.ipdb" from rfl, if_pos rfl] at g1
    exact Option.some.inj g1
  subst hb'
  rw [b1] at g2
  obtain rfl := Res.ok.inj g2
  refine ⟨bytes, Q, e1, hnew, ?_, ?_, fun ip hw => ?_⟩
  · obtain ⟨N, S, hmd⟩ := c2.md
    rw [g4, hmd]; rfl
  · show (Q.r.version _).ipType = _
    rw [g4]; exact b2 (by decide)
  · have hs : Supports srcTable.version ip := hw.supports
    rcases src_halves hw with ⟨row, h1, h2, h3, h4⟩ | ⟨row, h1, h2, h3, h4⟩
    · have := a3 ip row hw.1 hs h1 h2
      rw [h3] at this
      rw [h4] at h2
      unfold Covers at h2
      rw [show netEnd ⟨[0, 0, 0, 0], [128, 0, 0, 0]⟩ = 0xffff * 2 ^ 32 + 2 ^ 31 by decide +kernel] at h2
      rw [if_pos h2.2]
      exact ⟨_, this⟩
    · have := a3 ip row hw.1 hs h1 h2
      rw [h3] at this
      rw [h4] at h2
      unfold Covers at h2
      rw [show netLo ⟨[128, 0, 0, 0], [128, 0, 0, 0]⟩ = 0xffff * 2 ^ 32 + 2 ^ 31 by decide +kernel] at h2
      rw [if_neg (by omega)]
      exact ⟨_, this⟩

/-- C95 on the example: the conversion succeeds; the output gives Hangzhou its district and its normalised province, and
gives every American address a Chinese main carrier. -/
theorem ex_answers (fuel : Nat) (hfuel : fuel ≥ 2 ^ 128) : ∃ fs fs' b,
    converter exWorld fuel (fun _ => [gs "电信"]) (fun _ => true) fs srcArgs = some (fs', .ok ()) ∧
    fs' (gs "b.ipdb") = some b ∧
    (b.length < 2 ^ 32 → ∃ q, NewDb exWorld (serverFormats exWorld fuel) fs' (gs "b.ipdb") = .ok q ∧
      (∃ m, q.query [1, 2, 3, 4] = .ok (⟨gs "中国", gs "华东", gs "浙江", gs "杭州", [], gs "电信", gs "亚洲", []⟩, m)) ∧
      ∃ m, q.query [200, 0, 0, 1] = .ok (⟨gs "美国", [], [], [], [], gs "电信", gs "北美洲", []⟩, m)) := by
  obtain ⟨bytes, Q, _, hnew, hcols, htype, hsays⟩ := src_opened fuel
  have hfam : ∀ ip, Family exWorld (.ipdb Q) ip ↔ Walked srcTable.version ip := by
    intro ip
    have : dumpLen (OpenDb.versionInfo exWorld (.ipdb Q)) = dumpLen srcTable.version := by
      unfold dumpLen VersionInfo.IsIpV6
      rw [htype]; rfl
    unfold Family Walked
    rw [this]
  have hv6 : ¬ (OpenDb.versionInfo exWorld (.ipdb Q)).IsIpV6 = true := by
    unfold VersionInfo.IsIpV6; rw [htype]; decide
  have honly : ∀ ip i, Family exWorld (.ipdb Q) ip → Says (.ipdb Q) ip i → i = srcLow ∨ i = srcHigh := by
    rintro ip i hf ⟨m, h⟩
    obtain ⟨m', h'⟩ := hsays ip ((hfam ip).mp hf)
    rw [h] at h'
    rw [(Prod.mk.inj (Res.ok.inj h')).1]
    split
    · exact .inl rfl
    · exact .inr rfl
  have hw1 : Family exWorld (.ipdb Q) [1, 2, 3, 4] := (hfam _).mpr (by unfold Walked; decide +kernel)
  have hw2 : Family exWorld (.ipdb Q) [200, 0, 0, 1] := (hfam _).mpr (by unfold Walked; decide +kernel)
  have hs1 : Says (.ipdb Q) [1, 2, 3, 4] srcLow := by
    have := hsays [1, 2, 3, 4] ((hfam _).mp hw1)
    rwa [if_pos (by decide +kernel)] at this
  have hs2 : Says (.ipdb Q) [200, 0, 0, 1] srcHigh := by
    have := hsays [200, 0, 0, 1] ((hfam _).mp hw2)
    rwa [if_neg (by decide +kernel)] at this
  have c1 : cleaned srcLow = ⟨gs "中国", [], gs "浙江", gs "杭州", [], gs "电信", gs "亚洲", []⟩ := by decide +kernel
  have c2 : cleaned srcHigh = ⟨gs "美国", [], [], [], [], [], gs "北美洲", []⟩ := by decide +kernel
  have hmain : ∀ A : IpInfo → Prop, (∀ i, A i → i = srcLow ∨ i = srcHigh) → ∀ s m, Carries A s m → m = gs "电信" := by
    rintro A hA s m ⟨hm, i, hi, h1, _⟩
    rcases hA i hi with rfl | rfl
    · rw [← h1, c1]
    · rw [← h1, c2] at hm
      exact absurd hm (by decide +kernel)
  have hA : ∀ F : IP → Prop, (∀ ip i, F ip → Says (.ipdb Q) ip i → i = srcLow ∨ i = srcHigh) →
      ∀ i, (∃ ip, F ip ∧ Says (.ipdb Q) ip i) → i = srcLow ∨ i = srcHigh := fun _ h i ⟨ip, hf, hi⟩ => h ip i hf hi
  obtain ⟨fs', b, r1, r2, _, r3⟩ := C95_ipdb exWorld fuel hfuel (fun _ => [gs "电信"]) (fun _ => true) _ srcArgs Q hnew (by decide +kernel)
    (by omega) (fun ip hf => ⟨_, hsays ip ((hfam ip).mp hf)⟩) (fun h => absurd h hv6) rfl rfl
    (fun ip i hf h => by rcases honly ip i hf h with rfl | rfl <;> decide +kernel) (fun h => absurd h hv6)
    (fun k => ⟨by simp, fun m => ⟨fun h => by
      rw [List.mem_singleton.mp h]
      exact ⟨by decide +kernel, srcLow, ⟨_, hw1, hs1⟩, by rw [c1]⟩, fun ⟨hm, i, ⟨ip, hf, hi⟩, h⟩ =>
        List.mem_singleton.mpr (hmain _ (hA _ honly) _ m ⟨hm, i, ⟨ip, hf, hi⟩, h, rfl⟩)⟩⟩)
    (by decide +kernel) (by decide +kernel) rfl (ex_meta _ _)
  refine ⟨_, fs', b, r1, r2, fun hl => ?_⟩
  obtain ⟨q, q1, q2, _⟩ := r3 hl
  refine ⟨q, q1, ?_, ?_⟩
  · obtain ⟨o, n, k1, _, ⟨f1, f2, f3, f4, f5, f6, f7, f8⟩, _⟩ := q2 _ _ hw1 hs1
    rw [c1] at f1 f2 f3 f4 f5 f6 f8
    refine ⟨maskFor n [1, 2, 3, 4], ?_⟩
    rw [k1]
    have h8 : o.isp = gs "电信" := by
      rcases f8 with ⟨h, _⟩ | ⟨h, _⟩
      · exact absurd (by decide +kernel : gs "电信" ∈ mainCarriers) h
      · exact h
    have : o = ⟨gs "中国", gs "华东", gs "浙江", gs "杭州", [], gs "电信", gs "亚洲", []⟩ := by
      obtain ⟨o1, o2, o3, o4, o5, o6, o7, o8⟩ := o
      simp only at f1 f2 f3 f4 f5 f6 f7 h8
      subst f1 f2 f3 f4 f5 f6 f7 h8
      decide +kernel
    rw [this]
  · obtain ⟨o, n, k1, _, hfin, _⟩ := q2 _ _ hw2 hs2
    have hcar := C95_foreign_carrier _ srcHigh o srcLow hfin (by decide +kernel) ⟨_, hw1, hs1⟩ (by rw [c1]; decide +kernel) (by rw [c1])
    obtain ⟨f1, f2, f3, f4, f5, f6, f7, f8⟩ := hfin
    rw [c2] at f1 f2 f3 f4 f5 f6 f8
    refine ⟨maskFor n [200, 0, 0, 1], ?_⟩
    rw [k1]
    have h8 : o.isp = gs "电信" := by
      rcases f8 with ⟨_, h⟩ | ⟨h, _⟩
      · exact hmain _ (hA _ honly) _ _ h
      · rw [h] at hcar; exact absurd hcar (by decide +kernel)
    have : o = ⟨gs "美国", [], [], [], [], gs "电信", gs "北美洲", []⟩ := by
      obtain ⟨o1, o2, o3, o4, o5, o6, o7, o8⟩ := o
      simp only at f1 f2 f3 f4 f5 f6 f7 h8
      subst f1 f2 f3 f4 f5 f6 f7 h8
      decide +kernel
    rw [this]

/-! ## An awdb file -/

open Uip.Spec.Awdb (File strRecord Doc At Stored SizeOK treeWalk)

def awLow : List (Str × Str) := [(gs "country", gs "中国"), (gs "province", gs "广东"), (gs "asnumber", gs "4837"), (gs "isp", gs "联通")]
def awHigh : List (Str × Str) := [(gs "country", gs "中国"), (gs "province", gs "湖南"), (gs "asnumber", gs "17964"), (gs "isp", gs "鹏博士")]

/-- An IPv4 file: `0.0.0.0/1` has one record, `128.0.0.0/1` the other. -/
def awFile : File where
  recordSize := 24
  nodes := [(17, 17 + (strRecord awLow).enc.length)]
  data := (strRecord awLow).enc ++ ((strRecord awHigh).enc ++ List.replicate 2000 0)
  meta_ := (Doc.map (Awdb.demoMeta 4 1 24)).enc
  md := { nodeCount := 1, recordSize := 24, ipVersion := 4, buildEpoch := 1600000000, languages := [gs "CN"], databaseType := gs "demo" }

set_option maxRecDepth 100000 in
theorem awFile_ok : awFile.OK where
  size := Or.inl rfl
  fit := by decide +kernel
  count := by decide +kernel
  metadata := ⟨_, _, Awdb.demoMeta_stored 4 1 24 (by omega) (by omega) (by omega), by decide +kernel⟩
  mdSize := rfl
  mdCount := rfl
  long := by decide +kernel
  tail := by decide +kernel
  once := Awdb.once_of (by decide +kernel)

theorem awLow_fits : (strRecord awLow).AllFit ∧ (strRecord awLow).levels ≤ 513 := by
  constructor
  · simp only [strRecord, awLow, List.map_cons, List.map_nil, Doc.AllFit, Doc.AllFit.fitPairs, Doc.Fits, SizeOK, List.length_cons, List.length_nil]
    exact ⟨by omega, by decide +kernel, by decide +kernel, by decide +kernel, by decide +kernel, by decide +kernel, by decide +kernel,
      by decide +kernel, by decide +kernel, trivial⟩
  · simp [strRecord, awLow, Doc.levels, Doc.levels.levelsPairs]

theorem awHigh_fits : (strRecord awHigh).AllFit ∧ (strRecord awHigh).levels ≤ 513 := by
  constructor
  · simp only [strRecord, awHigh, List.map_cons, List.map_nil, Doc.AllFit, Doc.AllFit.fitPairs, Doc.Fits, SizeOK, List.length_cons, List.length_nil]
    exact ⟨by omega, by decide +kernel, by decide +kernel, by decide +kernel, by decide +kernel, by decide +kernel, by decide +kernel,
      by decide +kernel, by decide +kernel, trivial⟩
  · simp [strRecord, awHigh, Doc.levels, Doc.levels.levelsPairs]

theorem awLow_stored : Stored awFile.data 513 0 (strRecord awLow) (0 + (strRecord awLow).enc.length) :=
  Awdb.enc_stored _ _ _ _ (by unfold At awFile; rw [List.drop_zero]; exact List.prefix_append _ _) awLow_fits.1 awLow_fits.2

theorem awHigh_stored : Stored awFile.data 513 (strRecord awLow).enc.length (strRecord awHigh)
    ((strRecord awLow).enc.length + (strRecord awHigh).enc.length) :=
  Awdb.enc_stored _ _ _ _ (by unfold At awFile; rw [List.drop_left]; exact List.prefix_append _ _) awHigh_fits.1 awHigh_fits.2

/-- Every IPv4 address has one of the two records. -/
theorem aw_find {r : Awdb.Reader} (ho : Awdb.FromBytes awFile.bytes = .ok r) (ip : IP) (hv : ValidIP ip) (h4 : (To4 ip).isSome) :
    ∃ net l, (l = awLow ∨ l = awHigh) ∧ WFNet net ∧ r.LookupNetwork ip = .ok (net, some (strRecord l).val) ∧
      r.Find ip = .ok (net, Awdb.mapRange l.reverse) ∧ r.Query ip = .ok (Awdb.infoOf l, pfx net) ∧
      ((awFile.path ip).head? = some false → l = awLow) ∧ ((awFile.path ip).head? = some true → l = awHigh) := by
  have hlen : (Spec.Awdb.canon ip).length = 4 := by
    unfold Spec.Awdb.canon
    obtain ⟨q, hq⟩ := Option.isSome_iff_exists.mp h4
    rw [hq]
    exact (To4_eq_some hq).2.1
  have hasks : awFile.Asks ip := ⟨hv, .inr hlen⟩
  have hpl : (awFile.path ip).length = 32 := by
    unfold File.path
    rw [if_neg (by decide), List.nil_append, bits_length, hlen]
  have main : ∀ l off e n, Stored awFile.data 513 off (strRecord l) e → n = awFile.nodes.length + 16 + off →
      treeWalk awFile.nodes (awFile.path ip) 0 0 = (n, 1) →
      ∃ net, WFNet net ∧ r.LookupNetwork ip = .ok (net, some (strRecord l).val) ∧ r.Find ip = .ok (net, Awdb.mapRange l.reverse) ∧
        r.Query ip = .ok (Awdb.infoOf l, pfx net) := by
    intro l off e n hst hn hw
    obtain ⟨r', ho', _, h2, _⟩ := Awdb.C63_lookup awFile awFile_ok ip hasks n 1 hw
    rw [ho] at ho'
    obtain rfl := Res.ok.inj ho'
    obtain ⟨net, h3, h5, _⟩ := h2 off _ e hst hn
    obtain ⟨m, k1, _, k3⟩ := Awdb.toStrings_record l
    refine ⟨net, h5, h3, ?_, Awdb.query_record h5 h3⟩
    unfold Awdb.Reader.Find
    rw [h3, Res.ok_bind]
    simp only [k1, Res.ok_bind, k3]
    rfl
  have hn : ∀ (bs : List Bool) (n : Nat), 1 ≤ n → treeWalk awFile.nodes bs n 1 = (n, 1) := by
    intro bs n h
    cases bs with
    | nil => rfl
    | cons b bs =>
      unfold treeWalk
      rw [show awFile.nodes[n]? = none from List.getElem?_eq_none (by show 1 ≤ n; exact h)]
  cases hp : awFile.path ip with
  | nil => rw [hp] at hpl; cases hpl
  | cons b bs =>
    cases b with
    | false =>
      obtain ⟨net, g1, g2, g3, g4⟩ := main awLow 0 _ 17 awLow_stored rfl (by
        rw [hp]
        show treeWalk awFile.nodes bs 17 1 = _
        exact hn _ _ (by omega))
      exact ⟨net, awLow, .inl rfl, g1, g2, g3, g4, fun _ => rfl, fun h => by cases h⟩
    | true =>
      obtain ⟨net, g1, g2, g3, g4⟩ := main awHigh _ _ (17 + (strRecord awLow).enc.length) awHigh_stored rfl (by
        rw [hp]
        show treeWalk awFile.nodes bs (17 + (strRecord awLow).enc.length) 1 = _
        exact hn _ _ (by omega))
      exact ⟨net, awHigh, .inr rfl, g1, g2, g3, g4, (fun h => by cases h), fun _ => rfl⟩

def awArgs : Args := ⟨gs "a.awdb", gs "b.ipdb", gs "default", [], false⟩
def awFs : Fs := fun n => if n = gs "a.awdb" then some awFile.bytes else none

theorem aw_opened (fuel : Nat) : ∃ R, NewDb exWorld (converterFormats exWorld fuel) awFs awArgs.input = .ok (.awdb R) ∧
    Awdb.FromBytes awFile.bytes = .ok R ∧ R.md = awFile.md := by
  obtain ⟨R, ho, _, _, _, hm⟩ := Awdb.file_opens awFile_ok
  refine ⟨R, ?_, ho, hm⟩
  unfold NewDb
  rw [show awFs awArgs.input = some awFile.bytes from if_pos rfl]
  simp only []
  rw [show pathExt awArgs.input = gs ".awdb" by decide +kernel]
  unfold NewDbFromBytes
  rw [opener_awdb]
  have hc : Awdb.open_ awFile.bytes = .ok R := by
    obtain ⟨net, l, _, _, _, hf, _⟩ := aw_find ho (goIPv4 8 8 8 8) (by decide) (by decide)
    unfold Awdb.open_ Awdb.Reader.check
    rw [ho, Res.ok_bind, hf]
    split <;> rfl
  simp only [hc, Res.ok_bind, Res.pure_eq, OpenDb.buildCache]

theorem aw_infos : Awdb.infoOf awLow = { country := gs "中国", province := gs "广东", asn := gs "4837", isp := gs "联通" } ∧
    Awdb.infoOf awHigh = { country := gs "中国", province := gs "湖南", asn := gs "17964", isp := gs "鹏博士" } := by decide +kernel

/-- C96 on the example: `200.0.0.1` of 鹏博士 (AS 17964) gets the carrier 联通 of AS 4837, and no AS number. -/
theorem ex_awdb_answers (fuel : Nat) (hfuel : fuel ≥ 2 ^ 128) : ∃ fs' b,
    converter exWorld fuel (fun _ => [gs "联通"]) (fun _ => true) awFs awArgs = some (fs', .ok ()) ∧
    fs' (gs "b.ipdb") = some b ∧
    (b.length < 2 ^ 32 → ∃ q m, NewDb exWorld (serverFormats exWorld fuel) fs' (gs "b.ipdb") = .ok q ∧
      q.query [200, 0, 0, 1] = .ok (⟨gs "中国", gs "华中", gs "湖南", [], [], gs "联通", [], []⟩, m)) := by
  obtain ⟨R, hnew, ho, hm⟩ := aw_opened fuel
  have h6 : R.md.ipVersion ≠ 6 := by rw [hm]; decide
  have hfam : ∀ ip, Family exWorld (.awdb R) ip ↔ ValidIP ip ∧ (To4 ip).isSome := by
    intro ip
    refine and_congr_right fun _ => ?_
    rw [show dumpLen (OpenDb.versionInfo exWorld (.awdb R)) = 4 from Awdb.dumpLen_four h6]; simp
  have hq : ∀ ip i, ValidIP ip → (To4 ip).isSome → Says (.awdb R) ip i → i = Awdb.infoOf awLow ∨ i = Awdb.infoOf awHigh := by
    rintro ip i hv h4 ⟨m, h⟩
    obtain ⟨net, l, hl, _, _, _, hq, _⟩ := aw_find ho ip hv h4
    have h' : R.Query ip = .ok (i, m) := h
    rw [hq] at h'
    rw [← (Prod.mk.inj (Res.ok.inj h')).1]
    rcases hl with rfl | rfl
    · exact .inl rfl
    · exact .inr rfl
  obtain ⟨n1, l1, _, _, _, _, q1, hl1, _⟩ := aw_find ho [1, 2, 3, 4] (by decide) (by decide)
  obtain ⟨n2, l2, _, _, _, _, q2, _, hl2⟩ := aw_find ho [200, 0, 0, 1] (by decide) (by decide)
  rw [hl1 (by decide +kernel)] at q1
  rw [hl2 (by decide +kernel)] at q2
  have s1 : SaysNoAsn (.awdb R) [1, 2, 3, 4] { country := gs "中国", province := gs "广东", isp := gs "联通" } :=
    ⟨_, ⟨_, q1⟩, by rw [aw_infos.1]⟩
  have s2 : SaysNoAsn (.awdb R) [200, 0, 0, 1] { country := gs "中国", province := gs "湖南", isp := gs "鹏博士" } :=
    ⟨_, ⟨_, q2⟩, by rw [aw_infos.2]⟩
  have c1 : cleaned { country := gs "中国", province := gs "广东", isp := gs "联通" } =
      { country := gs "中国", province := gs "广东", isp := gs "联通" } := by decide +kernel
  have c2 : cleaned { country := gs "中国", province := gs "湖南", isp := gs "鹏博士" } =
      { country := gs "中国", province := gs "湖南", isp := gs "鹏博士" } := by decide +kernel
  have hmain : ∀ F : IP → Prop, (∀ ip, F ip → ValidIP ip ∧ (To4 ip).isSome) → ∀ s m,
      Carries (fun i => ∃ ip, F ip ∧ SaysNoAsn (.awdb R) ip i) s m → m = gs "联通" := by
    rintro F hF s m ⟨hm, i, ⟨ip, hf, j, hj, rfl⟩, h1, _⟩
    rcases hq ip j (hF ip hf).1 (hF ip hf).2 hj with rfl | rfl
    · rw [aw_infos.1] at h1
      rw [← h1]; show (cleaned { country := gs "中国", province := gs "广东", isp := gs "联通" }).isp = _
      rw [c1]
    · rw [aw_infos.2] at h1
      have h1' : (cleaned { country := gs "中国", province := gs "湖南", isp := gs "鹏博士" }).isp = m := h1
      rw [c2] at h1'
      rw [← h1'] at hm
      exact absurd hm (by decide +kernel)
  have hw1 : Family exWorld (.awdb R) [1, 2, 3, 4] := (hfam _).mpr (by decide)
  have hw2 : Family exWorld (.awdb R) [200, 0, 0, 1] := (hfam _).mpr (by decide)
  obtain ⟨fs', b, r1, r2, _, r3⟩ := C96_awdb exWorld fuel hfuel (fun _ => [gs "联通"]) (fun _ => true) awFs awArgs R hnew
    (by decide +kernel) h6
    (fun ip net rec hv h4 h => by
      obtain ⟨net', l, hl, _, _, hf, _⟩ := aw_find ho ip hv h4
      rw [h] at hf
      rw [(Prod.mk.inj (Res.ok.inj hf)).2]
      rcases hl with rfl | rfl <;> decide +kernel)
    (fun ip hv h4 => by
      obtain ⟨net, l, _, _, _, _, h, _⟩ := aw_find ho ip hv h4
      exact ⟨_, _, h⟩) rfl rfl
    (fun ip i hv h4 h => by
      rcases hq ip i hv h4 h with rfl | rfl
      · rw [aw_infos.1]; decide +kernel
      · rw [aw_infos.2]; decide +kernel)
    (fun k => ⟨by simp, fun m => ⟨fun h => by
      rw [List.mem_singleton.mp h]
      exact ⟨by decide +kernel, _, ⟨_, hw1, s1⟩, by rw [c1]⟩, fun ⟨hm, i, hi, h⟩ =>
        List.mem_singleton.mpr (hmain _ (fun ip h => (hfam ip).mp h) _ m ⟨hm, i, hi, h, rfl⟩)⟩⟩)
    (by decide +kernel) (by decide +kernel) rfl (ex_meta _ _)
  refine ⟨fs', b, r1, r2, fun hl => ?_⟩
  obtain ⟨q, k1, k2, _⟩ := r3 hl
  obtain ⟨o, n, k3, _, hfin, _⟩ := k2 _ _ hw2 s2
  refine ⟨q, maskFor n [200, 0, 0, 1], k1, ?_⟩
  have hcar := C96_all_main _ _ _ _ _ _ o hfin s2 hw1 s1 (by rw [c1]; decide +kernel)
  obtain ⟨f1, f2, f3, f4, f5, f6, f7, f8⟩ := hfin
  rw [c2] at f1 f2 f3 f4 f5 f6 f8
  rw [k3]
  have h8 : o.isp = gs "联通" := by
    rcases f8 with ⟨_, h⟩ | ⟨h, _⟩
    · exact hmain _ (fun ip h => (hfam ip).mp h) _ _ h
    · rw [h] at hcar; exact absurd hcar (by decide +kernel)
  have : o = ⟨gs "中国", gs "华中", gs "湖南", [], [], gs "联通", [], []⟩ := by
    obtain ⟨o1, o2, o3, o4, o5, o6, o7, o8⟩ := o
    simp only at f1 f2 f3 f4 f5 f6 f7 h8
    subst f1 f2 f3 f4 f5 f6 f7 h8
    decide +kernel
  rw [this]

end Uip.Program
