import Verif.Props.EndToEnd
import Verif.Props.MergeMin
import Verif.Spec.Canonical
/-!
# C117: equal data, equal files

What the converter writes depends on the record of each address, not on how the input is cut into networks, in which order
it stores its records, or which order Go's maps take.
-/
namespace Uip.Program
open Uip Uip.Spec Uip.Operate
open Uip.Export (sevenFields)
open Uip.Dump (Walked)

/-- What a conversion writes: the merged settled rows with their district, packed. -/
theorem convert_bytes {w : World} {fuel : Nat} {orders : Nat → List Str} {canCreate : Str → Bool} {fs : Fs} {a : Args}
    {cap : Nat → Nat} {D : IpData} (hin : Dumps w fuel fs a cap D) (ht : Table D) (hline : a.line = [])
    (hord : CarrierOrders NormalizedMap D orders)
    (ho : (0x2C : UInt8) ∉ a.output) (he : pathExt a.output = gs ".ipdb") (hcc : canCreate a.output = true)
    (hmeta : Ipdb.MetaRoundTrip w.encMeta w.decMeta (Ipdb.buildMeta w.now D.version (addField D.fields fDistrict))) :
    ∃ (b : Bytes) (d2 d3 d4 : HData), converter w fuel orders canCreate fs a = some (fs.set a.output b, .ok ()) ∧
      Rel2 (Settled D) D.ips d2.view.ips ∧ (∀ r ∈ d2.rows, WFNet r.cidr) ∧ (Ascending D.ips → Ascending d2.view.ips) ∧
      MergeNearNetwork d2 = .ok d3 ∧
      d4.WF ∧ RowsOK d4.view ∧ ValuesOK d4.view ∧ DisjointRows (rowsOf d4.view) ∧
      d4.fields = addField D.fields fDistrict ∧
      d4.version = { D.version with count := UInt32.ofNat d3.rows.length } ∧
      d4.view.ips = (d3.view.ips.map fun x => setOrAdd D.fields fDistrict (districtOf ((fieldVal D.fields fProvince x).getD [])) x) ∧
      Ipdb.pack w.encMeta w.now d4.view = .ok b ∧ (∀ r ∈ d3.view.ips, ∃ r2 ∈ d2.view.ips, r.values = r2.values) ∧
      (∀ y, firstMatch d3.view.ips y = firstMatch d2.view.ips y) := by
  obtain ⟨data, create, g1, g2, g3⟩ := hin
  obtain ⟨d1, d2, d3, e1, e2, e3, hset, hw3, ha3, hf3, hne3, hver3, hwf3, hdis3, hvals3, hfm, _, _⟩ := default_ops ht cap orders (legal_orders ht hord)
  have hfine2 := fine_table ht hset
  have hfine3 : ∀ r ∈ d3.view.ips, FineRow r := by
    intro r hr
    obtain ⟨r2, hr2, hv⟩ := hvals3 r hr
    intro v hv'; rw [hv] at hv'; exact hfine2 r2 hr2 v hv'
  have hall3 := not_all ht hset hwf3 (disjoint_iff.mp hdis3) hfm
  obtain ⟨d4, e4, hw4, hf4, hver4, hrows4, hval4, hdis4, hi4⟩ := district_end (grow := w.grow) hw3 ha3
    (by rw [hf3]; exact ht.province) (by rw [hf3]; exact ht.continent)
    (by rw [hf3]; have := ht.modest.fields; omega) hwf3 hall3 hdis3 hfine3
  obtain ⟨b, p1, _⟩ := opened_packed (knows_server w fuel) hrows4 hval4 hdis4
    (by show 2 ≤ d4.fields.length; rw [hf4, hf3]; exact Nat.le_trans (two_fields ht) addField_le)
    (by show Ipdb.MetaRoundTrip _ _ (Ipdb.buildMeta _ d4.version d4.fields); rw [hf4, hf3, hver4, hver3]; exact hmeta)
  obtain ⟨d', p2⟩ := packFile_ipdb (w := w) (fuel := fuel) (canCreate := canCreate) (fs := fs) hw4 he hcc p1
  have hc2 : d2.view.ips.map (·.cidr) = D.ips.map (·.cidr) :=
    Rel2.map_eq (f := fun (x : IpRaw) => x.cidr) (g := fun (x : IpRaw) => x.cidr)
      (hset.imp_mem fun a _ b _ h => Settled.cidr h)
  refine ⟨b, d2, d3, d4, ?_, hset, ?_, ?_, e3, hw4, hrows4, hval4, hdis4, by rw [hf4, hf3], by rw [hver4, hver3], by rw [hi4, hf3], p1, hvals3, hfm⟩
  · unfold converter
    simp only []
    rw [if_neg (by rw [hline]; simp)]
    unfold DumpFile
    rw [g1]; simp only []
    rw [g2]; simp only []
    rw [g3]
    simp only [Option.map_some, Res.ok_bind, operations, List.append_nil, List.cons_append, List.nil_append, runOps, e1, e2, e3, e4]
    rw [splitByte_none ho]
    unfold writeAll
    rw [p2]; rfl
  · intro r hr
    have : (d2.rowView r).cidr ∈ D.ips.map (·.cidr) := by
      rw [← hc2]; exact List.mem_map.mpr ⟨_, List.mem_map.mpr ⟨r, hr, rfl⟩, rfl⟩
    obtain ⟨x, hx, e⟩ := List.mem_map.mp this
    rw [show r.cidr = (d2.rowView r).cidr from rfl, ← e]; exact ht.wf x hx
  · intro hasc
    unfold Ascending at hasc ⊢
    have h1 : (D.ips.map (·.cidr)).Pairwise fun a b => netEnd a ≤ netLo b := List.pairwise_map.mpr hasc
    rw [← hc2] at h1
    exact List.pairwise_map.mp h1

/-- Rows covering the same addresses whose settled records agree. -/
structure SameSettled (D1 D2 : IpData) : Prop where
  covers : ∀ y, (∃ x ∈ D1.ips, Covers x.cidr y) ↔ ∃ z ∈ D2.ips, Covers z.cidr y
  record : ∀ y, ∀ x ∈ D1.ips, ∀ z ∈ D2.ips, Covers x.cidr y → Covers z.cidr y → ∀ x' z', Settled D1 x x' → Settled D2 z z' →
    x'.values = z'.values

theorem firstMatch_none {ips : List IpRaw} {y : Nat} (h : ∀ x ∈ ips, ¬ Covers x.cidr y) : firstMatch ips y = none := by
  cases hf : firstMatch ips y with
  | none => rfl
  | some v =>
    obtain ⟨r, hr, hc, _⟩ := firstMatch_some hf
    exact absurd hc (h r hr)

theorem settled_firstMatch {D1 D2 : IpData} (t1 : Table D1) (t2 : Table D2) (h : SameSettled D1 D2) {l1 l2 : List IpRaw}
    (s1 : Rel2 (Settled D1) D1.ips l1) (s2 : Rel2 (Settled D2) D2.ips l2) (y : Nat) : firstMatch l1 y = firstMatch l2 y := by
  have hc : ∀ {D : IpData} {l : List IpRaw}, Rel2 (Settled D) D.ips l → l.map (·.cidr) = D.ips.map (·.cidr) := fun s =>
    Rel2.map_eq (f := fun (x : IpRaw) => x.cidr) (g := fun (x : IpRaw) => x.cidr)
      (s.imp_mem fun a _ b _ h => Settled.cidr h)
  have d1 : l1.Pairwise fun a b => ¬ Overlap a.cidr b.cidr := pairwise_cidr (hc s1) (disjoint_iff.mp t1.disjoint)
  have d2 : l2.Pairwise fun a b => ¬ Overlap a.cidr b.cidr := pairwise_cidr (hc s2) (disjoint_iff.mp t2.disjoint)
  by_cases hy : ∃ x ∈ D1.ips, Covers x.cidr y
  · obtain ⟨z, hz, hzc⟩ := (h.covers y).mp hy
    obtain ⟨x, hx, hxc⟩ := hy
    obtain ⟨x', hx', hsx⟩ := rel2_mem_left s1 hx
    obtain ⟨z', hz', hsz⟩ := rel2_mem_left s2 hz
    rw [firstMatch_of_disjoint d1 hx' (by rw [hsx.cidr]; exact hxc), firstMatch_of_disjoint d2 hz' (by rw [hsz.cidr]; exact hzc),
      h.record y x hx z hz hxc hzc x' z' hsx hsz]
  · have hy2 : ¬ ∃ z ∈ D2.ips, Covers z.cidr y := fun h2 => hy ((h.covers y).mpr h2)
    rw [firstMatch_none (ips := l1), firstMatch_none (ips := l2)]
    · intro z' hz' hcz
      obtain ⟨z, hz, hs⟩ := rel2_mem_right s2 hz'
      exact hy2 ⟨z, hz, by rw [← hs.cidr]; exact hcz⟩
    · intro x' hx' hcx
      obtain ⟨x, hx, hs⟩ := rel2_mem_right s1 hx'
      exact hy ⟨x, hx, by rw [← hs.cidr]; exact hcx⟩

theorem pack_release {enc : Ipdb.MetaData → Bytes} {now : Int} {d1 d2 : IpData} (hf : d1.fields = d2.fields)
    (hv : SameRelease d1.version d2.version) (hi : d1.ips = d2.ips) : Ipdb.pack enc now d1 = Ipdb.pack enc now d2 := by
  unfold Ipdb.pack Ipdb.buildMeta Ipdb.ipVersion
  rw [hf, hi, hv.1, hv.2.1, hv.2.2]

/-- Two conversions whose settled records agree write the same bytes. -/
theorem same_settled {w : World} {fuel1 fuel2 : Nat} {orders1 orders2 : Nat → List Str} {can1 can2 : Str → Bool} {fs1 fs2 : Fs} {a1 a2 : Args}
    {cap1 cap2 : Nat → Nat} {D1 D2 : IpData} (h1 : Dumps w fuel1 fs1 a1 cap1 D1) (h2 : Dumps w fuel2 fs2 a2 cap2 D2)
    (t1 : Table D1) (t2 : Table D2) (asc1 : Ascending D1.ips) (asc2 : Ascending D2.ips)
    (hl1 : a1.line = []) (hl2 : a2.line = [])
    (hr1 : CarrierOrders NormalizedMap D1 orders1) (hr2 : CarrierOrders NormalizedMap D2 orders2)
    (o1 : (0x2C : UInt8) ∉ a1.output) (o2 : (0x2C : UInt8) ∉ a2.output)
    (x1 : pathExt a1.output = gs ".ipdb") (x2 : pathExt a2.output = gs ".ipdb")
    (c1 : can1 a1.output = true) (c2 : can2 a2.output = true)
    (hmeta : Ipdb.MetaRoundTrip w.encMeta w.decMeta (Ipdb.buildMeta w.now D1.version (addField D1.fields fDistrict)))
    (hf : D1.fields = D2.fields) (hv : SameRelease D1.version D2.version) (hs : SameSettled D1 D2) :
    ∃ b, converter w fuel1 orders1 can1 fs1 a1 = some (fs1.set a1.output b, .ok ()) ∧
      converter w fuel2 orders2 can2 fs2 a2 = some (fs2.set a2.output b, .ok ()) := by
  have hmeta2 : Ipdb.MetaRoundTrip w.encMeta w.decMeta (Ipdb.buildMeta w.now D2.version (addField D2.fields fDistrict)) := by
    have : Ipdb.buildMeta w.now D2.version (addField D2.fields fDistrict) = Ipdb.buildMeta w.now D1.version (addField D1.fields fDistrict) := by
      unfold Ipdb.buildMeta Ipdb.ipVersion
      rw [hf, hv.1, hv.2.1, hv.2.2]
    rw [this]; exact hmeta
  obtain ⟨b1, p2, p3, p4, e1, s1, w1, g1, m1, _, _, _, _, f1, v1, i1, k1, _⟩ := convert_bytes h1 t1 hl1 hr1 o1 x1 c1 hmeta
  obtain ⟨b2, q2, q3, q4, e2, s2, w2, g2, m2, _, _, _, _, f2, v2, i2, k2, _⟩ := convert_bytes h2 t2 hl2 hr2 o2 x2 c2 hmeta2
  have hm := C91_canonical p2 q2 p3 q3 w1 w2 (g1 asc1) (g2 asc2) m1 m2 (settled_firstMatch t1 t2 hs s1 s2)
  have hb : Ipdb.pack w.encMeta w.now p4.view = Ipdb.pack w.encMeta w.now q4.view := by
    refine pack_release ?_ ?_ ?_
    · show p4.fields = q4.fields
      rw [f1, f2, hf]
    · show SameRelease p4.version q4.version
      rw [v1, v2]; exact hv
    · rw [i1, i2, hm, hf]
  rw [k1, k2] at hb
  obtain rfl := Res.ok.inj hb
  exact ⟨b1, e1, e2⟩

/-! ## Tables -/

theorem normRow_values {t : GoMap (GoMap Str)} {fs : List Str} {x z : IpRaw} (h : x.values = z.values) :
    (normRow t fs x).values = (normRow t fs z).values := by
  unfold normRow; rw [h]

theorem setField_values {fs : List Str} {f v : Str} {x z : IpRaw} (h : x.values = z.values) :
    (setField fs f v x).values = (setField fs f v z).values := by
  unfold setField; split <;> simp [h]

/-- The settled record of a row depends on its values only. -/
theorem settled_values {D1 D2 : IpData} (hf : D1.fields = D2.fields)
    (hc : ∀ s m, CarrierOf D1.fields (D1.ips.map (normRow NormalizedMap D1.fields)) s m ↔
      CarrierOf D2.fields (D2.ips.map (normRow NormalizedMap D2.fields)) s m)
    (h1 : OneCarrierTable D1) {x z x' z' : IpRaw} (hx : x ∈ D1.ips)
    (hv : (normRow NormalizedMap D1.fields x).values = (normRow NormalizedMap D1.fields z).values) (sx : Settled D1 x x')
    (sz : Settled D2 z z') : x'.values = z'.values := by
  unfold Settled MovedIsp at sx sz
  simp only [← hc] at sz
  rw [← hf] at sz
  have e1 := fieldVal_values (fs := D1.fields) (f := fISP) hv
  have e2 := fieldVal_values (fs := D1.fields) (f := fAsn) hv
  rw [← e1, ← e2] at sz
  rcases sx with ⟨u, s, m, g1, g2, g3, g4, rfl⟩ | ⟨rfl, hn⟩
  · rcases sz with ⟨u', s', m', k1, k2, k3, k4, rfl⟩ | ⟨rfl, hn'⟩
    · rw [g1] at k1; rw [g3] at k3
      obtain rfl := Option.some.inj k1
      obtain rfl := Option.some.inj k3
      rw [h1 _ (List.mem_map.mpr ⟨x, hx, rfl⟩) u s g1 g2 g3 _ _ g4 k4]
      exact setField_values hv
    · exact absurd ⟨u, s, m, g1, g2, g3, g4⟩ hn'
  · rcases sz with ⟨u', s', m', k1, k2, k3, k4, rfl⟩ | ⟨rfl, hn'⟩
    · exact absurd ⟨u', s', m', k1, k2, k3, k4⟩ hn
    · exact hv

theorem carrier_of_rows {D1 D2 : IpData} (hf : D1.fields = D2.fields) (hr : ∀ x ∈ D1.ips, ∃ z ∈ D2.ips, x.values = z.values) {s m : Str}
    (h : CarrierOf D1.fields (D1.ips.map (normRow NormalizedMap D1.fields)) s m) :
    CarrierOf D2.fields (D2.ips.map (normRow NormalizedMap D2.fields)) s m := by
  obtain ⟨hm, y, hy, k1, k2⟩ := h
  obtain ⟨x, hx, rfl⟩ := List.mem_map.mp hy
  obtain ⟨z, hz, hv⟩ := hr x hx
  have hv' := normRow_values (t := NormalizedMap) (fs := D1.fields) hv
  refine ⟨hm, _, List.mem_map.mpr ⟨z, hz, rfl⟩, ?_, ?_⟩
  · rw [← hf, ← fieldVal_values hv']; exact k1
  · rw [← hf, ← fieldVal_values hv']; exact k2

/-- C117, for tables: two inputs of any kind, read with any rules into tables with the same fields and the same release, whose
rows ascend and give every address the same record, are converted to the same bytes. -/
theorem C117_tables (w : World) (fuel1 fuel2 : Nat) (orders1 orders2 : Nat → List Str) (can1 can2 : Str → Bool) (fs1 fs2 : Fs) (a1 a2 : Args)
    (cap1 cap2 : Nat → Nat) (D1 D2 : IpData) (h1 : Dumps w fuel1 fs1 a1 cap1 D1) (h2 : Dumps w fuel2 fs2 a2 cap2 D2)
    (t1 : Table D1) (t2 : Table D2) (asc1 : Ascending D1.ips) (asc2 : Ascending D2.ips)
    (hl1 : a1.line = []) (hl2 : a2.line = [])
    (hr1 : CarrierOrders NormalizedMap D1 orders1) (hr2 : CarrierOrders NormalizedMap D2 orders2)
    (o1 : (0x2C : UInt8) ∉ a1.output) (o2 : (0x2C : UInt8) ∉ a2.output)
    (x1 : pathExt a1.output = gs ".ipdb") (x2 : pathExt a2.output = gs ".ipdb")
    (c1 : can1 a1.output = true) (c2 : can2 a2.output = true)
    (hmeta : Ipdb.MetaRoundTrip w.encMeta w.decMeta (Ipdb.buildMeta w.now D1.version (addField D1.fields fDistrict)))
    (hf : D1.fields = D2.fields) (hv : SameRelease D1.version D2.version) (hone : OneCarrierTable D1)
    (hsame : ∀ y, firstMatch D1.ips y = firstMatch D2.ips y) :
    ∃ b, converter w fuel1 orders1 can1 fs1 a1 = some (fs1.set a1.output b, .ok ()) ∧
      converter w fuel2 orders2 can2 fs2 a2 = some (fs2.set a2.output b, .ok ()) := by
  have d1 := disjoint_iff.mp t1.disjoint
  have d2 := disjoint_iff.mp t2.disjoint
  have key : ∀ {D D' : IpData}, D.ips.Pairwise (fun a b => ¬ Overlap a.cidr b.cidr) → (∀ y, firstMatch D.ips y = firstMatch D'.ips y) →
      ∀ y, ∀ x ∈ D.ips, Covers x.cidr y → ∃ z ∈ D'.ips, Covers z.cidr y ∧ z.values = x.values := by
    intro D D' hd h y x hx hc
    have := firstMatch_of_disjoint hd hx hc
    rw [h] at this
    exact firstMatch_some this
  have hrow : ∀ {D D' : IpData}, D.ips.Pairwise (fun a b => ¬ Overlap a.cidr b.cidr) → (∀ y, firstMatch D.ips y = firstMatch D'.ips y) →
      ∀ x ∈ D.ips, ∃ z ∈ D'.ips, x.values = z.values := by
    intro D D' hd h x hx
    obtain ⟨z, hz, _, e⟩ := key hd h (netLo x.cidr) x hx ⟨Nat.le_refl _, netLo_lt⟩
    exact ⟨z, hz, e.symm⟩
  have hsame' : ∀ y, firstMatch D2.ips y = firstMatch D1.ips y := fun y => (hsame y).symm
  refine same_settled h1 h2 t1 t2 asc1 asc2 hl1 hl2 hr1 hr2 o1 o2 x1 x2 c1 c2 hmeta hf hv ⟨fun y => ⟨?_, ?_⟩, ?_⟩
  · rintro ⟨x, hx, hc⟩
    obtain ⟨z, hz, hcz, _⟩ := key d1 hsame y x hx hc
    exact ⟨z, hz, hcz⟩
  · rintro ⟨x, hx, hc⟩
    obtain ⟨z, hz, hcz, _⟩ := key d2 hsame' y x hx hc
    exact ⟨z, hz, hcz⟩
  · intro y x hx z hz hcx hcz x' z' sx sz
    have e1 := firstMatch_of_disjoint d1 hx hcx
    have e2 := firstMatch_of_disjoint d2 hz hcz
    rw [hsame, e2] at e1
    refine settled_values hf (fun s m => ⟨carrier_of_rows hf (hrow d1 hsame), carrier_of_rows hf.symm (hrow d2 hsame')⟩) hone hx
      (normRow_values (Option.some.inj e1).symm) sx sz

/-! ## Answers -/

/-- An `.ipdb` file and a conversion of it as in C95: the query library opens it, it answers every address of its family with
ordinary values, the rule is the default one, there is no line file, the one output is an `.ipdb` file that can be created,
and `orders` are orders Go may take. -/
structure Convertible (w : World) (fuel : Nat) (orders : Nat → List Str) (canCreate : Str → Bool) (fs : Fs) (a : Args)
    (Q : Ipdb.Querier) : Prop where
  opened : NewDb w (converterFormats w fuel) fs a.input = .ok (.ipdb Q)
  kind : pathExt a.input = gs ".ipdb"
  columns : 2 ≤ Q.r.md.fields.length
  total : ∀ ip, Family w (.ipdb Q) ip → ∃ i, Says (.ipdb Q) ip i
  crosses : (OpenDb.versionInfo w (.ipdb Q)).IsIpV6 = true → ∃ i m, (OpenDb.ipdb Q).query belowMapped = .ok (i, m) ∧ m ≤ 95
  rule : a.rule = gs "default"
  line : a.line = []
  plain : ∀ ip i, Family w (.ipdb Q) ip → Says (.ipdb Q) ip i → Plainly i
  mixed : (OpenDb.versionInfo w (.ipdb Q)).IsIpV6 = true → ∃ ip ip' i i', Family w (.ipdb Q) ip ∧ Family w (.ipdb Q) ip' ∧
      Says (.ipdb Q) ip i ∧ Says (.ipdb Q) ip' i' ∧ i.country ≠ i'.country
  orders : AnswerOrders (fun i => ∃ ip, Family w (.ipdb Q) ip ∧ Says (.ipdb Q) ip i) orders
  single : (0x2C : UInt8) ∉ a.output
  target : pathExt a.output = gs ".ipdb"
  creates : canCreate a.output = true
  codec : Ipdb.MetaRoundTrip w.encMeta w.decMeta (Ipdb.buildMeta w.now (OpenDb.versionInfo w (.ipdb Q)) sevenFields)

/-- The answers of a database for the addresses of its family. -/
abbrev AnswersOf (w : World) (Q : Ipdb.Querier) : IpInfo → Prop := fun i => ∃ ip, Family w (.ipdb Q) ip ∧ Says (.ipdb Q) ip i

section
variable {w : World} {fuel : Nat} {orders : Nat → List Str} {canCreate : Str → Bool} {fs : Fs} {a : Args} {Q : Ipdb.Querier}

theorem Describes.table {v : VersionInfo} {K : IP → IpInfo → Prop} {D : IpData} (h : Describes v K D)
    (hp : ∀ i, Answers v K i → Plainly i)
    (hu : dumpLen v = 16 → ∃ i j, Answers v K i ∧ Answers v K j ∧ i.country ≠ j.country) : Table D := by
  refine h.on.table hp ?_
  rcases Export.dumpLen_cases v with h4 | h16
  · left
    refine ⟨0, Nat.two_pow_pos _, fun r hr hc => ?_⟩
    have := ((tiles_covers h.tiles).2 0).mp ⟨r.cidr, List.mem_map_of_mem hr, hc⟩
    rw [h4] at this
    unfold famLo at this
    rw [if_pos rfl] at this
    omega
  · exact .inr (hu h16)

/-- The table of a convertible file. -/
theorem Convertible.dumped (h : Convertible w fuel orders canCreate fs a Q) (hfuel : fuel ≥ 2 ^ 128) :
    ∃ D cap, Describes (OpenDb.versionInfo w (.ipdb Q)) (Says (.ipdb Q)) D ∧ Dumps w fuel fs a cap D ∧ Table D ∧ Ascending D.ips ∧
      CarrierOrders NormalizedMap D orders := by
  obtain ⟨D, cap, hdes, hd⟩ := ipdb_describes hfuel h.opened h.kind h.columns h.total h.crosses h.rule
  refine ⟨D, cap, hdes, hd, hdes.table (fun i ⟨ip, h1, h2⟩ => h.plain ip i h1 h2) (fun h16 => ?_), tiles_ascending hdes.tiles,
    hdes.on.orders h.orders⟩
  obtain ⟨ip, ip', i, i', g1, g2, g3, g4, g5⟩ := h.mixed (dumpLen16 h16)
  exact ⟨i, i', ⟨ip, g1, g3⟩, ⟨ip', g2, g4⟩, g5⟩

/-- Networks of two tables that cover a common address share one the databases were asked for. -/
theorem Describes.shared {v1 v2 : VersionInfo} {K1 K2 : IP → IpInfo → Prop} {D1 D2 : IpData} (h1 : Describes v1 K1 D1)
    (h2 : Describes v2 K2 D2) (hw : ∀ ip, Walked v1 ip ↔ Walked v2 ip) {x z : IpRaw} (hx : x ∈ D1.ips) (hz : z ∈ D2.ips)
    {y : Nat} (cx : Covers x.cidr y) (cz : Covers z.cidr y) :
    ∃ ip, Walked v1 ip ∧ Covers x.cidr (addrNum ip) ∧ Covers z.cidr (addrNum ip) := by
  obtain ⟨wx, _⟩ := h1.wf x hx
  obtain ⟨wz, _⟩ := h2.wf z hz
  obtain ⟨p, hp, cp⟩ := h1.from_ x hx
  obtain ⟨q, hq, cq⟩ := h2.from_ z hz
  have bx := (WFNet_bounds wx).1
  have bz := (WFNet_bounds wz).1
  have ex : netEnd x.cidr = netLo x.cidr + 2 ^ hostBits x.cidr := rfl
  have ez : netEnd z.cidr = netLo z.cidr + 2 ^ hostBits z.cidr := rfl
  unfold Covers at *
  rcases Nat.le_total (hostBits x.cidr) (hostBits z.cidr) with hle | hle
  · refine ⟨p, hp, cp, ?_⟩
    rcases laminar bx bz hle with h | h | h <;> omega
  · refine ⟨q, (hw q).mpr hq, ?_, cq⟩
    rcases laminar bz bx hle with h | h | h <;> omega

/-- C117: two `.ipdb` files of the same release that give every address of the family the same answer are converted to the
same bytes, however their networks and records are arranged and whatever orders Go's maps take, provided no AS number of a
record with a minor carrier occurs with two main carriers. -/
theorem C117_same_bytes {fuel1 fuel2 : Nat} (hfuel1 : fuel1 ≥ 2 ^ 128) (hfuel2 : fuel2 ≥ 2 ^ 128) {orders1 orders2 : Nat → List Str}
    {can1 can2 : Str → Bool} {fs1 fs2 : Fs} {a1 a2 : Args} {Q1 Q2 : Ipdb.Querier}
    (h1 : Convertible w fuel1 orders1 can1 fs1 a1 Q1) (h2 : Convertible w fuel2 orders2 can2 fs2 a2 Q2)
    (hv : SameRelease (OpenDb.versionInfo w (.ipdb Q1)) (OpenDb.versionInfo w (.ipdb Q2)))
    (hsame : ∀ ip i, Family w (.ipdb Q1) ip → (Says (.ipdb Q1) ip i ↔ Says (.ipdb Q2) ip i))
    (hone : OneCarrier (AnswersOf w Q1)) :
    ∃ b, converter w fuel1 orders1 can1 fs1 a1 = some (fs1.set a1.output b, .ok ()) ∧
      converter w fuel2 orders2 can2 fs2 a2 = some (fs2.set a2.output b, .ok ()) := by
  obtain ⟨D1, cap1, d1, u1, t1, asc1, ord1⟩ := h1.dumped hfuel1
  obtain ⟨D2, cap2, d2, u2, t2, asc2, ord2⟩ := h2.dumped hfuel2
  have hlen : dumpLen (OpenDb.versionInfo w (.ipdb Q2)) = dumpLen (OpenDb.versionInfo w (.ipdb Q1)) := by
    unfold dumpLen VersionInfo.IsIpV6; rw [hv.1]
  have hw : ∀ ip, Family w (.ipdb Q1) ip ↔ Family w (.ipdb Q2) ip := by
    intro ip; unfold Family Walked; rw [hlen]
  have e1 : addField sevenFields fDistrict = sevenFields := by decide +kernel
  have hf : D1.fields = D2.fields := by rw [d1.fields, d2.fields]
  have hcar : ∀ s m, CarrierOf D1.fields (D1.ips.map (normRow NormalizedMap D1.fields)) s m ↔
      CarrierOf D2.fields (D2.ips.map (normRow NormalizedMap D2.fields)) s m := by
    intro s m
    rw [d1.on.carries, d2.on.carries]
    unfold Carries
    refine and_congr_right fun _ => ⟨?_, ?_⟩
    · rintro ⟨i, ⟨ip, g1, g2⟩, g3⟩
      exact ⟨i, ⟨ip, (hw ip).mp g1, (hsame ip i g1).mp g2⟩, g3⟩
    · rintro ⟨i, ⟨ip, g1, g2⟩, g3⟩
      exact ⟨i, ⟨ip, (hw ip).mpr g1, (hsame ip i ((hw ip).mpr g1)).mpr g2⟩, g3⟩
  have hone' : OneCarrierTable D1 := by
    intro y hy u s hu hn hs m m' g1 g2
    rw [d1.on.carries] at g1 g2
    obtain ⟨x, hx, rfl⟩ := List.mem_map.mp hy
    obtain ⟨i, hi, hv⟩ := d1.on.val x hx
    rw [d1.on.normed hv, d1.on.fields, val_isp] at hu
    rw [d1.on.normed hv, d1.on.fields, val_asn] at hs
    obtain rfl := Option.some.inj hu
    obtain rfl := Option.some.inj hs
    exact hone i hi hn m m' g1 g2
  refine same_settled u1 u2 t1 t2 asc1 asc2 h1.line h2.line ord1 ord2 h1.single h2.single h1.target h2.target h1.creates h2.creates
    (by rw [d1.fields, e1, d1.version]; exact h1.codec) hf (by rw [d1.version, d2.version]; exact hv) ⟨fun y => ?_, ?_⟩
  · have g1 := (tiles_covers d1.tiles).2 y
    have g2 := (tiles_covers d2.tiles).2 y
    rw [hlen] at g2
    have hm : ∀ D : IpData, (∃ x ∈ D.ips, Covers x.cidr y) ↔ ∃ n ∈ D.ips.map (·.cidr), Covers n y := by
      intro D
      constructor
      · rintro ⟨x, hx, hc⟩; exact ⟨_, List.mem_map_of_mem hx, hc⟩
      · rintro ⟨n, hn, hc⟩
        obtain ⟨x, hx, rfl⟩ := List.mem_map.mp hn
        exact ⟨x, hx, hc⟩
    rw [hm, hm]
    exact g1.trans g2.symm
  · intro y x hx z hz cx cz x' z' sx sz
    obtain ⟨ip, hip, c1, c2⟩ := d1.shared d2 hw hx hz cx cz
    obtain ⟨i, k1, v1⟩ := d1.row x hx ip hip c1
    obtain ⟨j, k2, v2⟩ := d2.row z hz ip ((hw ip).mp hip) c2
    have hij : i = j := d2.one ip i j ((hsame ip i hip).mp k1) k2
    subst hij
    exact settled_values hf hcar hone' hx (normRow_values (v1.trans v2.symm)) sx sz

/-- `b` is an `.ipdb` file that the converter's query library opens as `Q`. -/
def Opens (w : World) (fuel : Nat) (b : Bytes) (Q : Ipdb.Querier) : Prop :=
  ∀ (fs : Fs) (name : Str), fs name = some b → pathExt name = gs ".ipdb" → NewDb w (converterFormats w fuel) fs name = .ok (.ipdb Q)

theorem Opens.one {b : Bytes} {Q Q' : Ipdb.Querier} (h : Opens w fuel b Q) (h' : Opens w fuel b Q') : Q = Q' := by
  have e1 := h (fun _ => some b) (gs "a.ipdb") rfl (by decide +kernel)
  have e2 := h' (fun _ => some b) (gs "a.ipdb") rfl (by decide +kernel)
  rw [e1] at e2
  injection e2 with e2
  injection e2

/-- A packed table, opened again from any file name ending in `.ipdb` by a program that knows the format. -/
theorem packed_ipdb {w : World} {fuel : Nat} {T : IpData} (hok : RowsOK T) (hv : ValuesOK T) (hd : DisjointRows (rowsOf T))
    (hcols : 2 ≤ T.fields.length) (hj : Ipdb.MetaRoundTrip w.encMeta w.decMeta (Ipdb.buildMeta w.now T.version T.fields)) :
    ∃ bytes, Ipdb.pack w.encMeta w.now T = .ok bytes ∧ (bytes.length < 2 ^ 32 → ∃ Q, Opens w fuel bytes Q ∧
        Q.r.md.fields.length = T.fields.length ∧
        (T.version.ipType ∈ [IpV4, IpV6, IpAll] → (OpenDb.versionInfo w (.ipdb Q)).ipType = T.version.ipType) ∧
        (OpenDb.versionInfo w (.ipdb Q)).extraInfo = T.version.extraInfo ∧
        ((OpenDb.versionInfo w (.ipdb Q)).version =
          if T.version.version = [] then gs "ipip.net-" ++ w.fmtDate w.now else T.version.version) ∧
        (∀ a row, ValidIP a → Supports T.version a → row ∈ T.ips → Covers row.cidr (addrNum a) →
          (OpenDb.ipdb Q).query a = .ok (infoOf T.fields row.values, maskFor row.cidr a))) := by
  obtain ⟨bytes, e1, k1⟩ := opened_packed (knows_converter w fuel) hok hv hd hcols hj
  obtain ⟨b2, e2, k2⟩ := Ipdb.C20_version w.fmtDate hok hj
  obtain ⟨b3, e3, k3⟩ := Ipdb.opens hok hj
  rw [e1] at e2 e3
  obtain rfl := Res.ok.inj e2
  obtain rfl := Res.ok.inj e3
  refine ⟨bytes, e1, fun hl => ?_⟩
  obtain ⟨q, a1, _, a3, _⟩ := k1 hl
  obtain ⟨r, b1, b2, b3, _, b4, _⟩ := k2 hl
  obtain ⟨r', c1, _, c2⟩ := k3 hl
  rw [b1] at c1
  obtain rfl := Res.ok.inj c1
  have hnew : ∀ (fs : Fs) (name : Str), fs name = some bytes → pathExt name = gs ".ipdb" →
      NewDb w (converterFormats w fuel) fs name = .ok q := by
    intro fs name hfs hext
    unfold NewDb
    rw [hfs]
    simp only []
    rw [hext]
    exact a1
  obtain ⟨b', r', Q, g1, g2, rfl, g4, g5⟩ := open_ipdb (w := w) (fuel := fuel) (fs := fun _ => some bytes) (f := gs "a.ipdb")
    (by decide +kernel) (hnew (fun _ => some bytes) (gs "a.ipdb") rfl (by decide +kernel))
  obtain rfl := Option.some.inj g1
  rw [b1] at g2
  obtain rfl := Res.ok.inj g2
  refine ⟨Q, hnew, ?_, ?_, ?_, ?_, a3⟩
  · obtain ⟨N, S, hmd⟩ := c2.md
    rw [g4, hmd]; simp [Ipdb.buildMeta, Ipdb.covertFields]
  · intro h
    show (Q.r.version _).ipType = _
    rw [g4]; exact b2 h
  · show (Q.r.version _).extraInfo = _
    rw [g4]; exact b3
  · show (Q.r.version _).version = _
    rw [g4]; exact b4

end

end Uip.Program
