import Verif.Proof.Awdb.Demo
import Verif.Props.AwdbNets
import Verif.Props.Dump
/-!
# Properties C56, C57, C63 (and C24-C26 for awdb): querying and dumping awdb files

Vocabulary: `Verif/Spec/Awdb.lean`.
-/
namespace Uip.Awdb
open Uip Uip.Spec Uip.Spec.Awdb

/-! ## C63: the answer for every address of a well-formed file -/

/-- **C63.** For every well-formed file and every address it can be asked for: follow the bits of the address in the node
table (an IPv4 address stands at `::a.b.c.d` in an IPv6 file) to a record number `n` after `k` bits.
* `n` is the node count: there is no record.
* `n` is the node count plus 16 plus the offset of a value in the data section: that value is the record.
In both cases the network returned contains the address and has the prefix of the `k` bits walked. -/
theorem C63_lookup (f : File) (hf : f.OK) (a : IP) (ha : f.Asks a) (n k : Nat) (hw : treeWalk f.nodes (f.path a) 0 0 = (n, k)) :
    ∃ r, FromBytes f.bytes = .ok r ∧
      (n = f.nodes.length → ∃ net, r.LookupNetwork a = .ok (net, none) ∧ WFNet net ∧ Inside net a ∧
        pfx net + 8 * ((f.path a).length / 8 - net.ip.length) = k) ∧
      (∀ off d e, Stored f.data 513 off d e → n = f.nodes.length + 16 + off →
        ∃ net, r.LookupNetwork a = .ok (net, some d.val) ∧ WFNet net ∧ Inside net a ∧
          pfx net + 8 * ((f.path a).length / 8 - net.ip.length) = k) ∧
      (n < f.nodes.length ∨ f.nodes.length < n ∧ n < f.nodes.length + 16 → ∃ e, r.LookupNetwork a = .err e) := by
  obtain ⟨r, ho, _⟩ := file_opens hf
  obtain ⟨net, h1, h2, hm, hd, hl⟩ := file_lookup hf ha ho hw
  refine ⟨r, ho, ?_, ?_, ?_⟩
  · rintro rfl
    have : r.LookupNetwork a = .ok (net, none) := by
      rw [h1]; unfold found
      rw [hm, hf.mdCount, if_neg (by omega), if_pos rfl]
    obtain ⟨g1, g2⟩ := lookup_own (opened ho).start ha.1 this
    exact ⟨net, this, g1, g2, h2⟩
  · rintro off d e hst rfl
    have : r.LookupNetwork a = .ok (net, some d.val) := by
      rw [h1]; unfold found
      rw [hm, hf.mdCount, if_neg (by omega), if_neg (by omega), retrieve_file hm hd hl hf hst, Res.ok_bind]
    obtain ⟨g1, g2⟩ := lookup_own (opened ho).start ha.1 this
    exact ⟨net, this, g1, g2, h2⟩
  · intro h
    rw [h1]; unfold found
    rw [hm, hf.mdCount]
    rcases h with h | ⟨h, h'⟩
    · rw [if_pos h]; exact ⟨_, rfl⟩
    · rw [if_neg (by omega), if_neg (by omega)]
      unfold Reader.retrieveData Reader.resolveDataPointer
      rw [hm, hf.mdCount, if_pos h']
      exact ⟨_, rfl⟩

/-- The attributes of a record of strings: the last value of each key; the AS number stands under `asnumber`, there is no
district. -/
def infoOf (l : List (Str × Str)) : IpInfo :=
  { country := lastVal l (gs "country"), province := lastVal l (gs "province"), city := lastVal l (gs "city"),
    isp := lastVal l (gs "isp"), asn := lastVal l (gs "asnumber"), continent := lastVal l (gs "continent"),
    line := lastVal l (gs "line"), district := [] }

theorem query_record {r : Reader} {a : IP} {net : IPNet} {l : List (Str × Str)} (hw : WFNet net)
    (h : r.LookupNetwork a = .ok (net, some (strRecord l).val)) : r.Query a = .ok (infoOf l, pfx net) := by
  obtain ⟨m, h1, h2, _⟩ := toStrings_record l
  unfold Reader.Query Reader.Find
  rw [h, Res.ok_bind]
  simp only [h1, Res.ok_bind, h2, Res.pure_eq, maskSize_of_IsMask hw.1.2.2]
  rfl

/-- **C63 (Query).** If the record found for the address is a map of strings, Query returns its attributes and the prefix
length of the network. -/
theorem C63_query (f : File) (hf : f.OK) (a : IP) (ha : f.Asks a) (n k off e : Nat) (l : List (Str × Str))
    (hw : treeWalk f.nodes (f.path a) 0 0 = (n, k)) (hst : Stored f.data 513 off (strRecord l) e) (hn : n = f.nodes.length + 16 + off) :
    ∃ r net, FromBytes f.bytes = .ok r ∧ r.Query a = .ok (infoOf l, pfx net) ∧ WFNet net ∧ Inside net a ∧
      pfx net + 8 * ((f.path a).length / 8 - net.ip.length) = k := by
  obtain ⟨r, ho, _, h, _⟩ := C63_lookup f hf a ha n k hw
  obtain ⟨net, h1, h2, h3, h4⟩ := h off _ e hst hn
  exact ⟨r, net, ho, query_record h2 h1, h2, h3, h4⟩

/-- An IPv4 file: 1.2.3.4 is in the half with the record (`0.0.0.0/1`). -/
example : ∃ r net, FromBytes demo4.bytes = .ok r ∧
    r.Query [1, 2, 3, 4] = .ok ({ country := gs "中国", province := gs "广东", asn := gs "4837", isp := gs "联通" }, pfx net) ∧ pfx net = 1 := by
  obtain ⟨r, net, h1, h2, h3, h4, h5⟩ := C63_query demo4 demo4_ok [1, 2, 3, 4] (by decide +kernel) 17 1 0 _ demoRecord
    (by decide +kernel) demo4_stored (by decide +kernel)
  refine ⟨r, net, h1, ?_, ?_⟩
  · rw [h2, show infoOf demoRecord =
      { country := gs "中国", province := gs "广东", asn := gs "4837", isp := gs "联通" } by decide +kernel]
  · have hl : (demo4.path [1, 2, 3, 4]).length / 8 = 4 := by decide +kernel
    rw [hl] at h5
    have := h3.1.1
    unfold ValidIP at this
    omega

/-- An IPv6 file: the IPv4 address 1.2.3.4 is at `::1.2.3.4`, 96 bits down. -/
example : ∃ r net, FromBytes demo6.bytes = .ok r ∧ r.LookupNetwork [1, 2, 3, 4] = .ok (net, some (strRecord demoRecord).val) ∧ Inside net [1, 2, 3, 4] := by
  obtain ⟨r, h1, _, h2, _⟩ := C63_lookup demo6 demo6_ok [1, 2, 3, 4] (by decide +kernel) 112 96 (by decide +kernel)
  obtain ⟨net, h3, _, h4, _⟩ := h2 0 _ _ demo6_stored (by decide +kernel)
  exact ⟨r, net, h1, h3, h4⟩

/-! ## C56 -/

/-- **C56 is false.** Whenever a lookup succeeds without a record, Query (and the dump, which uses the same conversion)
crashes instead of returning an error. -/
theorem C56_missing_record_panics (r : Reader) (a : IP) (net : IPNet) (h : r.LookupNetwork a = .ok (net, none)) :
    r.Query a = .panic ∧ r.Find a = .panic := by
  have hf : r.Find a = .panic := by unfold Reader.Find; rw [h]; rfl
  refine ⟨?_, hf⟩
  unfold Reader.Query; rw [hf]; rfl

/-- **C56 (files).** In every well-formed file, for every address whose bits lead to the "no record" number. -/
theorem C56_files_panic (f : File) (hf : f.OK) (a : IP) (ha : f.Asks a) (k : Nat)
    (hw : treeWalk f.nodes (f.path a) 0 0 = (f.nodes.length, k)) : ∃ r, FromBytes f.bytes = .ok r ∧ r.Query a = .panic := by
  obtain ⟨r, ho, h, _⟩ := C63_lookup f hf a ha _ _ hw
  obtain ⟨net, h1, _⟩ := h rfl
  exact ⟨r, ho, (C56_missing_record_panics r a net h1).1⟩

/-- Such a file and address. -/
example : ∃ r, FromBytes demo4.bytes = .ok r ∧ r.Query [200, 0, 0, 1] = .panic :=
  C56_files_panic demo4 demo4_ok [200, 0, 0, 1] (by decide +kernel) 1 (by decide +kernel)

/-- **C56 (opening).** An IPv4 file without a record for 8.8.8.8 crashes when it is opened for queries or dumped. -/
theorem C56_open_panics (data : Bytes) (r : Reader) (ho : FromBytes data = .ok r) (h4 : r.md.ipVersion ≠ 6) (net : IPNet)
    (h : r.LookupNetwork (goIPv4 8 8 8 8) = .ok (net, none)) (fuel : Nat) (ept : Option Export.Exporter) :
    open_ data = .panic ∧ dump fuel data ept = some .panic := by
  have ht : r.version.HasIpV4 = true := by
    unfold VersionInfo.HasIpV4 Reader.version Metadata.IpType
    simp only []
    split
    · rfl
    · rfl
  have hop : open_ data = .panic := by
    unfold open_
    rw [ho, Res.ok_bind]
    unfold Reader.check
    rw [if_pos ht, (C56_missing_record_panics r _ net h).2]
    rfl
  exact ⟨hop, by unfold dump; rw [hop]⟩

/-- **C56 (what does hold).** A lookup that fails makes Query fail with the same error; a record of strings is
answered. -/
theorem C56_error (r : Reader) (a : IP) :
    (∀ e, r.LookupNetwork a = .err e → r.Query a = .err e) ∧
    ∀ net l, WFNet net → r.LookupNetwork a = .ok (net, some (strRecord l).val) → r.Query a = .ok (infoOf l, pfx net) := by
  refine ⟨fun e h => ?_, fun net l hw h => query_record hw h⟩
  unfold Reader.Query Reader.Find; rw [h]; rfl

/-! ## C57 -/

/-- The fields of a dump without a rule. -/
theorem dumpFields_plain : Export.dumpFields CommonFieldsMap Fields none =
    [fCountry, fProvince, fCity, fISP, fContinent, fLine] := by decide +kernel

/-- **C57 (without a rule).** The values dumped for a record are, for the dumped fields, the attributes Query
returns: country, province, city, isp, continent and line. -/
theorem C57_dump_query (r : Reader) (a : IP) (net : IPNet) (info : GoMap Str) (h : r.Find a = .ok (net, info)) :
    ∃ q : IpInfo, r.Query a = .ok (q, (maskSize net.mask).1) ∧
      Export.rowValues CommonFieldsMap (Export.dumpFields CommonFieldsMap Fields none) none info =
        .ok [q.country, q.province, q.city, q.isp, q.continent, q.line] := by
  refine ⟨_, by unfold Reader.Query; rw [h, Res.ok_bind]; rfl, ?_⟩
  rw [dumpFields_plain, (Dump.C25_row_values (fieldMap := CommonFieldsMap) (fields := [fCountry, fProvince, fCity, fISP, fContinent, fLine]) info).2]
  have k : ∀ f v, mapGet CommonFieldsMap f = some v → fieldValue CommonFieldsMap info f = strAt info v := by
    intro f v h
    unfold fieldValue strAt
    rw [h, Option.bind_some]
  simp only [List.map_cons, List.map_nil, k fCountry (gs "country") (by decide +kernel), k fProvince (gs "province") (by decide +kernel),
    k fCity (gs "city") (by decide +kernel), k fISP (gs "isp") (by decide +kernel), k fContinent (gs "continent") (by decide +kernel),
    k fLine (gs "line") (by decide +kernel)]

/-- C57: the keys of a record the dumped fields are taken from. -/
theorem C57_names : CommonFieldsMap = [(gs "country", gs "country"), (gs "province", gs "province"), (gs "city", gs "city"),
    (gs "isp", gs "isp"), (gs "asn", gs "asn"), (gs "continent", gs "continent"), (gs "line", gs "line")] ∧
    Export.dumpFields CommonFieldsMap Fields none =
      [gs "country", gs "province", gs "city", gs "isp", gs "continent", gs "line"] := by decide +kernel

/-- **C57 is false for the AS number.** For every record that has one and no key `asn`, Query returns it, a dump without a
rule leaves it out, and a dump with the rule `asn` gives the empty string. -/
theorem C57_asn_differs (info : GoMap Str) (v : Str) (h1 : mapGet info (gs "asnumber") = some v) (h2 : mapGet info fAsn = none)
    (r : Reader) (a : IP) (net : IPNet) (h : r.Find a = .ok (net, info)) :
    (∃ q : IpInfo, r.Query a = .ok (q, (maskSize net.mask).1) ∧ q.asn = v) ∧
    fAsn ∉ Export.dumpFields CommonFieldsMap Fields none ∧
    Export.rowValues CommonFieldsMap [fAsn] (some ⟨[fAsn], []⟩) info = .ok [[]] := by
  refine ⟨⟨_, by unfold Reader.Query; rw [h, Res.ok_bind]; rfl, ?_⟩, by decide +kernel, ?_⟩
  · simp only []; unfold strAt; rw [h1]; rfl
  · have k : Export.Select CommonFieldsMap [fAsn] = [(fAsn, fAsn)] := by decide +kernel
    unfold Export.rowValues
    simp only [k]
    unfold Export.Exporter.Export Export.Exporter.remapKey
    simp only [Export.remapLoop, h2, Res.ok_bind]
    rfl

/-- **C57 (the AS number, for every record).** Query takes it from the key `asnumber`; a dump with the rule `asn` takes it
from the key `asn`. -/
theorem C57_asn_exact (r : Reader) (a : IP) (net : IPNet) (info : GoMap Str) (h : r.Find a = .ok (net, info)) :
    (∃ q : IpInfo, r.Query a = .ok (q, (maskSize net.mask).1) ∧ q.asn = (mapGet info (gs "asnumber")).getD []) ∧
    Export.rowValues CommonFieldsMap [fAsn] (some ⟨[fAsn], []⟩) info = .ok [(mapGet info fAsn).getD []] := by
  refine ⟨⟨_, by unfold Reader.Query; rw [h, Res.ok_bind]; rfl, rfl⟩, ?_⟩
  have k : Export.Select CommonFieldsMap [fAsn] = [(fAsn, fAsn)] := by decide +kernel
  unfold Export.rowValues
  simp only [k]
  unfold Export.Exporter.Export Export.Exporter.remapKey
  simp only [Export.remapLoop, Res.ok_bind]
  cases mapGet info fAsn <;> rfl

/-- Such a record, found in a file. -/
example : ∃ r net info, FromBytes demo4.bytes = .ok r ∧ r.Find [1, 2, 3, 4] = .ok (net, info) ∧
    mapGet info (gs "asnumber") = some (gs "4837") ∧ mapGet info fAsn = none := by
  obtain ⟨r, h1, _, h2, _⟩ := C63_lookup demo4 demo4_ok [1, 2, 3, 4] (by decide +kernel) 17 1 (by decide +kernel)
  obtain ⟨net, h3, _⟩ := h2 0 _ _ demo4_stored (by decide +kernel)
  obtain ⟨m, h4, _, h5⟩ := toStrings_record demoRecord
  refine ⟨r, net, m, h1, ?_, ?_, ?_⟩
  · unfold Reader.Find; rw [h3, Res.ok_bind]; simp only [h4, Res.ok_bind]; rfl
  · rw [h5]; decide +kernel
  · rw [h5]; decide +kernel

/-! ## C24-C26 for awdb files that are not IPv6 -/

theorem famFour {a : IP} (h : InFam 4 a) : (canon a).length = 4 ∧ addrNum (canon a) = addrNum a := by
  obtain ⟨hv, h1, h2⟩ := h
  unfold famLo famEnd at *
  rw [if_pos rfl] at h1 h2
  have hs : (To4 a).isSome := by rw [To4_isSome_iff hv]; omega
  cases ht : To4 a with
  | none => rw [ht] at hs; cases hs
  | some b =>
    unfold canon
    rw [ht, Option.getD_some]
    obtain ⟨_, hb, hn⟩ := To4_eq_some ht
    exact ⟨hb, by rw [addrNum, if_pos hb, hn]⟩

theorem inNet_covers {net : IPNet} (hw : WFNet net) {q : IP} (hl : q.length = net.ip.length) :
    InNet net (pfx net) q ↔ Covers net (addrNum q) := by
  rw [InNet_iff_div hl]
  have hal := Aligned_iff.mp hw.2
  unfold Covers netLo netEnd hostBits addrNum
  rw [hl]
  generalize hP : 2 ^ (8 * net.ip.length - pfx net) = P at *
  have hpos : 0 < P := by rw [← hP]; exact Nat.two_pow_pos _
  have h1 := Nat.div_add_mod (val q) P
  have h2 := Nat.div_add_mod (val net.ip) P
  have h3 := Nat.mod_lt (val q) hpos
  have key : val q / P = val net.ip / P ↔ val net.ip ≤ val q ∧ val q < val net.ip + P := by
    constructor
    · intro h; rw [h] at h1; omega
    · rintro ⟨g1, g2⟩
      rw [hal, Nat.add_zero] at h2
      refine Nat.le_antisymm ?_ (Nat.div_le_div_right g1)
      rw [← Nat.lt_succ_iff, Nat.div_lt_iff_lt_mul hpos, Nat.succ_mul, Nat.mul_comm, h2]
      exact g2
  rw [key]
  split <;> omega

theorem inside_covers {net : IPNet} (hw : WFNet net) (hl : net.ip.length = 4) {a : IP} (ha : InFam 4 a) :
    Inside net a ↔ Covers net (addrNum a) := by
  obtain ⟨hc, hn⟩ := famFour ha
  unfold Inside
  rw [hl, hc, show (4 : Nat) - 4 = 0 from rfl, List.replicate_zero, List.nil_append, ← hn]
  exact inNet_covers hw (by rw [hc, hl])

theorem find_ok {r : Reader} {a : IP} {c : IPNet} {i : GoMap Str} (h : r.Find a = .ok (c, i)) :
    ∃ rec, r.LookupNetwork a = .ok (c, rec) ∧ toStrings rec = .ok i := by
  unfold Reader.Find at h
  obtain ⟨⟨net, rec⟩, h1, h⟩ := Res.bind_eq_ok.mp h
  obtain ⟨m, h2, h⟩ := Res.bind_eq_ok.mp h
  injection h with h
  injection h with h3 h4
  subst h3; subst h4
  exact ⟨rec, h1, h2⟩

theorem lookup_net_length {r : Reader} (h6 : r.md.ipVersion ≠ 6) {a : IP} (hv : ValidIP a) {net : IPNet} {rec : Option Val}
    (h : r.LookupNetwork a = .ok (net, rec)) : net.ip.length = (canon a).length := by
  obtain ⟨n, k, h4, hw, ha, hk⟩ := lookup_walk hv h
  rw [(answer_ok ha).1, canon_norm]
  exact (cidr_net (norm_valid hv) hk (fun h => h6 h.1)).1

theorem find_own {r : Reader} (hs : StartOK r) (h6 : r.md.ipVersion ≠ 6) : ReturnsOwnNet 4 r.Find := by
  intro a c i ha h
  obtain ⟨rec, h1, _⟩ := find_ok h
  obtain ⟨g1, g2⟩ := lookup_own hs ha.1 h1
  have hl := lookup_net_length h6 ha.1 h1
  rw [(famFour ha).1] at hl
  exact ⟨g1, hl, (inside_covers g1 hl ha).mp g2⟩

theorem find_coherent {r : Reader} (hs : StartOK r) (h6 : r.md.ipVersion ≠ 6) : Coherent 4 r.Find := by
  intro a b c i c' j ha hb h h' hcov
  obtain ⟨g1, hl, _⟩ := find_own hs h6 a c i ha h
  obtain ⟨rec, h1, h2⟩ := find_ok h
  obtain ⟨rec', h1', h2'⟩ := find_ok h'
  have := lookup_inside hs ha.1 hb.1 (by unfold SameFamily; rw [(famFour ha).1, (famFour hb).1]) h1 ((inside_covers g1 hl hb).mpr hcov)
  rw [this] at h1'
  injection h1' with h1'
  injection h1' with e1 e2
  subst e1; subst e2
  rw [h2] at h2'
  injection h2' with h2'
  exact ⟨rfl, h2'.symm⟩

theorem dumpLen_four {r : Reader} (h6 : r.md.ipVersion ≠ 6) : dumpLen r.version = 4 := by
  unfold dumpLen VersionInfo.IsIpV6 Reader.version Metadata.IpType
  simp only []
  split
  · rfl
  · rfl

theorem dump_opened {fuel : Nat} {data : Bytes} {ept : Option Export.Exporter} {d : IpData}
    (h : dump fuel data ept = some (.ok d)) : ∃ r, FromBytes data = .ok r ∧
      Export.BuildIPData fuel CommonFieldsMap Fields ept r.version r.Find = some (.ok d) := by
  unfold dump at h
  cases ho : open_ data with
  | err e => rw [ho] at h; simp at h
  | panic => rw [ho] at h; simp at h
  | ok r =>
    rw [ho] at h
    unfold open_ at ho
    obtain ⟨r', h1, ho⟩ := Res.bind_eq_ok.mp ho
    obtain ⟨_, _, ho⟩ := Res.bind_eq_ok.mp ho
    injection ho with ho
    subst ho
    exact ⟨_, h1, h⟩

/-- **C24 (awdb).** The rows of a finished dump of a file that is not IPv6 partition the IPv4 space, in address order. -/
theorem C24_awdb (fuel : Nat) (data : Bytes) (ept : Option Export.Exporter) (d : IpData) (r : Reader) (ho : FromBytes data = .ok r)
    (h6 : r.md.ipVersion ≠ 6) (h : dump fuel data ept = some (.ok d)) :
    Tiles (0xffff * 2 ^ 32) (d.ips.map (·.cidr)) (0x10000 * 2 ^ 32) ∧ ∀ x ∈ d.ips, WFNet x.cidr ∧ x.cidr.ip.length = 4 := by
  obtain ⟨r', ho', h⟩ := dump_opened h
  rw [ho] at ho'; injection ho' with ho'; subst ho'
  have hl := dumpLen_four h6
  have := Dump.C24_dump_tiles (by rw [hl]; exact find_own (opened ho).start h6) (by rw [hl]; exact find_coherent (opened ho).start h6) h
  rw [hl] at this
  exact this

/-- **C25 (awdb).** The row that covers an address holds the network LookupNetwork returns for it and the exported
values of its record. -/
theorem C25_awdb (fuel : Nat) (data : Bytes) (ept : Option Export.Exporter) (d : IpData) (r : Reader) (ho : FromBytes data = .ok r)
    (h6 : r.md.ipVersion ≠ 6) (h : dump fuel data ept = some (.ok d)) (a : IP) (ha : InFam 4 a) (x : IpRaw) (hx : x ∈ d.ips)
    (hcov : Covers x.cidr (addrNum a)) :
    ∃ info, r.Find a = .ok (x.cidr, info) ∧ Export.rowValues CommonFieldsMap d.fields ept info = .ok x.values := by
  obtain ⟨r', ho', h⟩ := dump_opened h
  rw [ho] at ho'; injection ho' with ho'; subst ho'
  have hl := dumpLen_four h6
  obtain ⟨g1, hl4, b, info, hb, hfb, hrow, _⟩ := (Dump.build_sound (by rw [hl]; exact find_own (opened ho).start h6)
    (by rw [hl]; exact find_coherent (opened ho).start h6) h).2 x hx
  rw [hl] at hb hl4
  refine ⟨info, ?_, hrow⟩
  obtain ⟨rec, h1, h2⟩ := find_ok hfb
  have := lookup_inside (opened ho).start hb.1 ha.1 (by unfold SameFamily; rw [(famFour hb).1, (famFour ha).1]) h1
    ((inside_covers g1 hl4 ha).mpr hcov)
  unfold Reader.Find
  rw [this, Res.ok_bind]
  simp only [h2, Res.ok_bind]
  rfl

/-- **C26 (awdb).** Dumping a file that is not IPv6 ends. -/
theorem C26_awdb (data : Bytes) (ept : Option Export.Exporter) (r : Reader) (ho : FromBytes data = .ok r)
    (h6 : r.md.ipVersion ≠ 6) : ∃ out, ∀ fuel ≥ 2 ^ 128, dump fuel data ept = some out := by
  unfold dump
  cases hop : open_ data with
  | err e => exact ⟨.err e, fun _ _ => rfl⟩
  | panic => exact ⟨.panic, fun _ _ => rfl⟩
  | ok r' =>
    unfold open_ at hop
    obtain ⟨r1, h1, hop⟩ := Res.bind_eq_ok.mp hop
    obtain ⟨_, _, hop⟩ := Res.bind_eq_ok.mp hop
    injection hop with hop
    rw [ho] at h1; injection h1 with h1
    subst h1; subst hop
    exact Dump.C26_dump_terminates (by rw [dumpLen_four h6]; exact find_own (opened ho).start h6)

end Uip.Awdb
