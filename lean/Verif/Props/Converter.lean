import Verif.Proof.PipelineEnd
import Verif.Props.Text
/-!
# Properties C64-C67: the programs

C64, C65: `converter -i input -o output.ipdb [-line file]`, from the table the input dumps to (`D`) to the answers of a
program that opens the output.  C66: what happens to the output files when a conversion fails.  C67: the HTTP server.

Vocabulary: `Verif/Spec/Pipeline.lean`; `Settled D x x'` (`Verif/Proof/Pipeline.lean`) says that `x'` is the row `x` of
the table with its names normalised (`normRow`, `C35`) and its carrier moved (`MovedIsp`, `C36`).
-/
namespace Uip.Program
open Uip Uip.Spec Uip.Operate

/-- The input file is there, its kind can be dumped, and with the chosen rule it dumps to the table `D`; `cap` gives the
capacities of the dumped slices. -/
def Dumps (w : World) (fuel : Nat) (fs : Fs) (a : Args) (cap : Nat → Nat) (D : IpData) : Prop :=
  ∃ b create, fs a.input = some b ∧ (converterFormats w fuel).GetDumpFormat (pathExt a.input) = some create ∧
    create b (Export.ParseRule (ruleText a.rule)) = some (.ok (dumped cap D))

/-- All addresses of the network have a row, and all their settled records are `v`. -/
def OneRecord (D : IpData) (n : IPNet) (v : List Str) : Prop :=
  ∀ y, Covers n y → ∃ z ∈ D.ips, Covers z.cidr y ∧ ∃ z', Settled D z z' ∧ z'.values = v

/-- The answer for a settled record `v`: its district added. -/
def converted (D : IpData) (v : List Str) : IpInfo :=
  infoOf (addField D.fields fDistrict)
    (setOrAdd D.fields fDistrict (districtOf ((fieldVal D.fields fProvince ⟨⟨[], []⟩, v⟩).getD [])) ⟨⟨[], []⟩, v⟩).values

theorem two_fields {D : IpData} (ht : Table D) : 2 ≤ D.fields.length := by
  obtain ⟨i, _, hi, _, h0, _⟩ := ht.usable
  have := Operate.Offset_lt hi
  omega

theorem addField_le {fs : List Str} {f : Str} : fs.length ≤ (addField fs f).length := by
  rw [addField_length]; split <;> omega

/-- The merged table and the settled table. -/
theorem merged_covers {D : IpData} (ht : Table D) {l2 l3 : List IpRaw} (hset : Rel2 (Settled D) D.ips l2)
    (hdis : l3.Pairwise fun a b => ¬ Overlap a.cidr b.cidr) (hfm : ∀ y, firstMatch l3 y = firstMatch l2 y) :
    (∀ x ∈ D.ips, ∀ y, Covers x.cidr y → ∃ x' r, Settled D x x' ∧ r ∈ l3 ∧ Covers r.cidr y ∧ r.values = x'.values) ∧
    (∀ r ∈ l3, OneRecord D r.cidr r.values) := by
  have hc2 : l2.map (·.cidr) = D.ips.map (·.cidr) :=
    Rel2.map_eq (f := fun (x : IpRaw) => x.cidr) (g := fun (x : IpRaw) => x.cidr)
      (hset.imp_mem fun a _ b _ h => Settled.cidr h)
  have hd2 : l2.Pairwise fun a b => ¬ Overlap a.cidr b.cidr := pairwise_cidr hc2 (disjoint_iff.mp ht.disjoint)
  constructor
  · intro x hx y hy
    obtain ⟨x', hx', hs⟩ := rel2_mem_left hset hx
    have h1 := firstMatch_of_disjoint hd2 hx' (y := y) (by rw [hs.cidr]; exact hy)
    rw [← hfm] at h1
    obtain ⟨r, hr, hc, hv⟩ := firstMatch_some h1
    exact ⟨x', r, hs, hr, hc, hv⟩
  · intro r hr y hy
    have h1 := firstMatch_of_disjoint hdis hr hy
    rw [hfm] at h1
    obtain ⟨z', hz', hc, hv⟩ := firstMatch_some h1
    obtain ⟨z, hz, hs⟩ := rel2_mem_right hset hz'
    exact ⟨z, hz, by rw [← hs.cidr]; exact hc, z', hs, hv⟩

theorem fine_table {D : IpData} (ht : Table D) {l2 : List IpRaw} (hset : Rel2 (Settled D) D.ips l2) : ∀ r ∈ l2, FineRow r := by
  intro r hr
  obtain ⟨z, hz, hs⟩ := rel2_mem_right hset hr
  exact fine_settled hs fun v hv => ⟨ht.modest.short z hz v hv, ht.modest.noTab z hz v hv⟩

/-- The part of a run after the dump: the output is written, opened again and asked. -/
theorem finish {w : World} {fuel : Nat} {canCreate : Str → Bool} {fs : Fs} {out : Str} {d : HData} (hw : d.WF)
    (hr : RowsOK d.view) (hv : ValuesOK d.view) (hd : DisjointRows (rowsOf d.view)) (h2 : 2 ≤ d.fields.length)
    (hmeta : Ipdb.MetaRoundTrip w.encMeta w.decMeta (Ipdb.buildMeta w.now d.version d.fields))
    (ho : (0x2C : UInt8) ∉ out) (he : pathExt out = gs ".ipdb") (hcc : canCreate out = true) :
    ∃ b, writeAll (converterFormats w fuel) canCreate (splitByte 0x2C out) fs d = (fs.set out b, .ok ()) ∧
      (b.length < 2 ^ 32 → ∀ reg, KnowsIpdb w reg → ∃ q, NewDb w reg (fs.set out b) out = .ok q ∧
        (∀ a row, ValidIP a → Supports d.version a → row ∈ d.view.ips → Covers row.cidr (addrNum a) →
          q.query a = .ok (infoOf d.fields row.values, maskFor row.cidr a)) ∧
        (∀ a, (¬ ValidIP a ∨ ¬ Supports d.version a ∨ ∀ row ∈ d.view.ips, ¬ Covers row.cidr (addrNum a)) →
          q.query a = .err .databaseError)) := by
  obtain ⟨b, e1, k⟩ := opened_packed (knows_server w fuel) hr hv hd h2 hmeta
  obtain ⟨d', e2⟩ := packFile_ipdb (w := w) (fuel := fuel) (canCreate := canCreate) (fs := fs) hw he hcc e1
  refine ⟨b, ?_, fun hl reg hk => ?_⟩
  · rw [splitByte_none ho]
    unfold writeAll
    rw [e2]; rfl
  · obtain ⟨b', e1', k'⟩ := opened_packed hk hr hv hd h2 hmeta
    rw [e1] at e1'
    injection e1' with e1'; subst e1'
    obtain ⟨q, o, _, a1, a2⟩ := k' hl
    refine ⟨q, ?_, a1, a2⟩
    unfold NewDb
    rw [show fs.set out b out = some b from by unfold Fs.set; rw [if_pos rfl]]
    simp only []
    rw [he]; exact o

/-- C64: a conversion to `.ipdb` succeeds, writes only the output, and a program opening the output finds for every
address with a row its settled record with its district, reported for a network on which that is the record everywhere;
for every other address an error. -/
theorem C64_convert (w : World) (fuel : Nat) (orders : Nat → List Str) (canCreate : Str → Bool) (fs : Fs) (a : Args)
    (cap : Nat → Nat) (D : IpData) (hin : Dumps w fuel fs a cap D) (ht : Table D) (hline : a.line = [])
    (hord : CarrierOrders NormalizedMap D orders)
    (ho : (0x2C : UInt8) ∉ a.output) (he : pathExt a.output = gs ".ipdb") (hcc : canCreate a.output = true)
    (hmeta : Ipdb.MetaRoundTrip w.encMeta w.decMeta (Ipdb.buildMeta w.now D.version (addField D.fields fDistrict))) :
    ∃ fs' b, converter w fuel orders canCreate fs a = some (fs', .ok ()) ∧
      fs' a.output = some b ∧ (∀ n ≠ a.output, fs' n = fs n) ∧
      (b.length < 2 ^ 32 → ∃ q, NewDb w (serverFormats w fuel) fs' a.output = .ok q ∧
        (∀ ip x, ValidIP ip → Supports D.version ip → x ∈ D.ips → Covers x.cidr (addrNum ip) →
          ∃ x' n, Settled D x x' ∧ Covers n (addrNum ip) ∧ OneRecord D n x'.values ∧
            q.query ip = .ok (converted D x'.values, maskFor n ip)) ∧
        (∀ ip, (¬ ValidIP ip ∨ ¬ Supports D.version ip ∨ ∀ x ∈ D.ips, ¬ Covers x.cidr (addrNum ip)) →
          q.query ip = .err .databaseError)) := by
  obtain ⟨data, create, g1, g2, g3⟩ := hin
  obtain ⟨d1, d2, d3, e1, e2, e3, hset, hw3, ha3, hf3, hne3, hver3, hwf3, hdis3, hvals3, hfm, _, _⟩ := default_ops ht cap orders (legal_orders ht hord)
  have hfine2 := fine_table ht hset
  have hfine3 : ∀ r ∈ d3.view.ips, FineRow r := by
    intro r hr
    obtain ⟨r2, hr2, hv⟩ := hvals3 r hr
    intro v hv'; rw [hv] at hv'; exact hfine2 r2 hr2 v hv'
  have hall3 := not_all ht hset hwf3 (disjoint_iff.mp hdis3) hfm
  obtain ⟨d4, e4, hw4, hf4, hver4, hrows4, hval4, hdis4, hi4⟩ := district_end (grow := w.grow) hw3 ha3
    (by rw [hf3]; exact ht.province) (by rw [hf3]; exact ht.continent)
    (by rw [hf3]; have := ht.modest.fields; omega) hwf3 hall3 hdis3 hfine3
  obtain ⟨b, k1, k2⟩ := finish (w := w) (fuel := fuel) (canCreate := canCreate) (fs := fs) hw4 hrows4 hval4 hdis4
    (by rw [hf4, hf3]; exact Nat.le_trans (two_fields ht) addField_le)
    (by rw [hf4, hf3, hver4, hver3]; exact hmeta) ho he hcc
  obtain ⟨hcov, hone⟩ := merged_covers ht hset (disjoint_iff.mp hdis3) hfm
  have hsup : ∀ ip, Supports d4.version ip ↔ Supports D.version ip := by
    intro ip; unfold Supports; rw [hver4, hver3]
  refine ⟨fs.set a.output b, b, ?_, by unfold Fs.set; rw [if_pos rfl], fun n hn => by unfold Fs.set; rw [if_neg hn], fun hl => ?_⟩
  · unfold converter
    simp only []
    rw [if_neg (by rw [hline]; simp)]
    unfold DumpFile
    rw [g1]; simp only []
    rw [g2]; simp only []
    rw [g3]
    simp only [Option.map_some, Res.ok_bind, operations, List.append_nil, List.cons_append, List.nil_append, runOps, e1, e2, e3, e4]
    rw [k1]
  · obtain ⟨q, o, a1, a2⟩ := k2 hl _ (knows_server w fuel)
    refine ⟨q, o, fun ip x h1 h2 h3 h4 => ?_, fun ip hn => ?_⟩
    · obtain ⟨x', r, hs, hr, hc, hv⟩ := hcov x h3 _ h4
      refine ⟨x', r.cidr, hs, hc, by rw [← hv]; exact hone r hr, ?_⟩
      have hmem : setOrAdd d3.fields fDistrict (districtOf ((fieldVal d3.fields fProvince r).getD [])) r ∈ d4.view.ips := by
        rw [hi4]; exact List.mem_map.mpr ⟨r, hr, rfl⟩
      rw [a1 ip _ h1 ((hsup ip).mpr h2) hmem (by rw [setOrAdd_cidr]; exact hc), setOrAdd_cidr, hf4, hf3]
      unfold converted
      rw [fieldVal_values (x := r) (y := ⟨⟨[], []⟩, x'.values⟩) hv,
        setOrAdd_values _ _ _ (x := r) (y := ⟨⟨[], []⟩, x'.values⟩) hv]
    · refine a2 ip ?_
      rcases hn with h | h | h
      · exact .inl h
      · exact .inr (.inl (fun h' => h ((hsup ip).mp h')))
      · right; right
        intro row hrow hc
        rw [hi4] at hrow
        obtain ⟨r, hr, rfl⟩ := List.mem_map.mp hrow
        rw [setOrAdd_cidr] at hc
        obtain ⟨z, hz, hcz, _⟩ := hone r hr _ hc
        exact h z hz hcz

/-- The answer for a settled record `v` on the network `n` when a line database is attached: the line (of the first address
of the network, Chinese records only), then the district. -/
def convertedLine (D : IpData) (line : LineDb) (n : IPNet) (v : List Str) : IpInfo :=
  infoOf (addField (D.fields ++ [fLine]) fDistrict)
    (setOrAdd (D.fields ++ [fLine]) fDistrict (districtOf ((fieldVal D.fields fProvince ⟨n, v⟩).getD []))
      ⟨n, v ++ [rowLine D.fields line ⟨n, v⟩]⟩).values

/-- The line database as the converter uses it. -/
def lineDb (w : World) (q : OpenDb) : LineDb := ⟨(q.versionInfo w).version, (q.versionInfo w).build, q.query⟩

/-- C65: the same with `-line file`, for a table without a line field dumped with a rule (the slices have their exact
capacity). -/
theorem C65_convert_line (w : World) (fuel : Nat) (orders : Nat → List Str) (canCreate : Str → Bool) (fs : Fs) (a : Args)
    (D : IpData) (hin : Dumps w fuel fs a id D) (ht : Table D) (hc : fCountry ∈ D.fields) (hnl : fLine ∉ D.fields)
    (lq : OpenDb) (hline : a.line ≠ []) (hlq : NewDb w (converterFormats w fuel) fs a.line = .ok lq)
    (hlp : ∀ ip, ValidIP ip → lq.query ip ≠ .panic) (hrep : a.lineReplace = false)
    (hord : CarrierOrders NormalizedMap D orders)
    (ho : (0x2C : UInt8) ∉ a.output) (he : pathExt a.output = gs ".ipdb") (hcc : canCreate a.output = true)
    (hmeta : Ipdb.MetaRoundTrip w.encMeta w.decMeta (Ipdb.buildMeta w.now
      { D.version with extraInfo := D.version.extraInfo ++ [(lq.versionInfo w).version ++ 0x2D :: w.dec (lq.versionInfo w).build] }
      (addField (D.fields ++ [fLine]) fDistrict))) :
    ∃ fs' b, converter w fuel orders canCreate fs a = some (fs', .ok ()) ∧
      fs' a.output = some b ∧ (∀ n ≠ a.output, fs' n = fs n) ∧
      (b.length < 2 ^ 32 → ∃ q, NewDb w (serverFormats w fuel) fs' a.output = .ok q ∧
        (∀ ip x, ValidIP ip → Supports D.version ip → x ∈ D.ips → Covers x.cidr (addrNum ip) →
          ∃ x' n, Settled D x x' ∧ Covers n (addrNum ip) ∧ OneRecord D n x'.values ∧
            q.query ip = .ok (convertedLine D (lineDb w lq) n x'.values, maskFor n ip)) ∧
        (∀ ip, (¬ ValidIP ip ∨ ¬ Supports D.version ip ∨ ∀ x ∈ D.ips, ¬ Covers x.cidr (addrNum ip)) →
          q.query ip = .err .databaseError)) := by
  obtain ⟨data, create, g1, g2, g3⟩ := hin
  obtain ⟨d1, d2, d3, e1, e2, e3, hset, hw3, ha3, hf3, hne3, hver3, hwf3, hdis3, hvals3, hfm, horig, hshape⟩ :=
    default_ops ht id orders (legal_orders ht hord)
  have hfine2 := fine_table ht hset
  have hfine3 : ∀ r ∈ d3.view.ips, FineRow r := by
    intro r hr
    obtain ⟨r2, hr2, hv⟩ := hvals3 r hr
    intro v hv'; rw [hv] at hv'; exact hfine2 r2 hr2 v hv'
  have hall3 := not_all ht hset hwf3 (disjoint_iff.mp hdis3) hfm
  obtain ⟨hcov, hone⟩ := merged_covers ht hset (disjoint_iff.mp hdis3) hfm
  have hns : NoSpare d3 := by
    intro r hr h
    obtain ⟨r0, hr0, hv⟩ := horig r hr
    rw [hv, hf3, hshape] at h
    exact noSpare_dumped ht.len r0 hr0 h
  obtain ⟨dl, el, hwl, hal, hfl, hverl, hil⟩ := C40_attach_line_new w.grow w.dec (lineDb w lq) d3 hw3 ha3
    (by rw [hf3]; exact hc) (fun r hr => hlp _ (hwf3 _ (List.mem_map.mpr ⟨r, hr, rfl⟩)).1.1)
    (by rw [hf3]; exact hnl) hns
  rw [hf3] at hfl hil
  have hcidl : dl.view.ips.map (·.cidr) = d3.view.ips.map (·.cidr) := by rw [hil, List.map_map]; rfl
  have hdisl : DisjointRows (rowsOf dl.view) := by
    rw [disjoint_iff]; exact pairwise_cidr hcidl (disjoint_iff.mp hdis3)
  have hfrom : ∀ r ∈ dl.view.ips, ∃ r3 ∈ d3.view.ips, r = ⟨r3.cidr, r3.values ++ [rowLine D.fields (lineDb w lq) r3]⟩ := by
    intro r hr
    rw [hil] at hr
    obtain ⟨r3, h3, rfl⟩ := List.mem_map.mp hr
    exact ⟨r3, h3, rfl⟩
  have hcontl : OneContinent (D.fields ++ [fLine]) := by
    have := oneContinent_add (f := fLine) ht.continent (by decide +kernel)
    unfold addField at this; rwa [if_neg hnl] at this
  obtain ⟨d4, e4, hw4, hf4, hver4, hrows4, hval4, hdis4, hi4⟩ := district_end (grow := w.grow) hwl hal
    (by rw [hfl]; exact List.mem_append_left _ ht.province) (by rw [hfl]; exact hcontl)
    (by rw [hfl, List.length_append]; have := ht.modest.fields; simp only [List.length_singleton]; omega)
    (fun r hr => by obtain ⟨r3, h3, rfl⟩ := hfrom r hr; exact hwf3 r3 h3)
    (fun r hr => by obtain ⟨r3, h3, rfl⟩ := hfrom r hr; exact hall3 r3 h3) hdisl
    (fun r hr => by
      obtain ⟨r3, h3, rfl⟩ := hfrom r hr
      intro v hv
      rcases List.mem_append.mp hv with hv | hv
      · exact hfine3 r3 h3 v hv
      · rw [List.mem_singleton.mp hv]
        unfold rowLine
        split
        · exact fine_lineAt _ _
        · exact fine_nil)
  rw [hfl] at hf4 hi4
  obtain ⟨b, k1, k2⟩ := finish (w := w) (fuel := fuel) (canCreate := canCreate) (fs := fs) hw4 hrows4 hval4 hdis4
    (by rw [hf4]; exact Nat.le_trans (by rw [List.length_append]; exact Nat.le_trans (two_fields ht) (Nat.le_add_right _ _)) addField_le)
    (by rw [hf4, hver4, hverl, hver3]; exact hmeta) ho he hcc
  have hsup : ∀ ip, Supports d4.version ip ↔ Supports D.version ip := by
    intro ip; unfold Supports; rw [hver4, hverl, hver3]
  have hpline : fProvince ≠ fLine := by decide +kernel
  refine ⟨fs.set a.output b, b, ?_, by unfold Fs.set; rw [if_pos rfl], fun n hn => by unfold Fs.set; rw [if_neg hn], fun hl => ?_⟩
  · unfold converter
    simp only []
    rw [if_pos hline, hlq]
    simp only []
    unfold DumpFile
    rw [g1]; simp only []
    rw [g2]; simp only []
    rw [g3]
    simp only [Option.map_some, Res.ok_bind, operations, hrep, Bool.false_eq_true, if_false, List.append_nil, List.cons_append,
      List.nil_append, runOps, e1, e2, e3]
    rw [show AttachLineByCidr w.grow w.dec ⟨(lq.versionInfo w).version, (lq.versionInfo w).build, lq.query⟩ d3 = .ok dl from el]
    simp only [Res.ok_bind, e4]
    rw [k1]
  · obtain ⟨q, o, a1, a2⟩ := k2 hl _ (knows_server w fuel)
    refine ⟨q, o, fun ip x h1 h2 h3 h4 => ?_, fun ip hn => ?_⟩
    · obtain ⟨x', r, hs, hr, hcr, hv⟩ := hcov x h3 _ h4
      refine ⟨x', r.cidr, hs, hcr, by rw [← hv]; exact hone r hr, ?_⟩
      have hrx : r = ⟨r.cidr, x'.values⟩ := by rw [← hv]
      have hlen : r.values.length = D.fields.length := by
        obtain ⟨r0, hr0, rfl⟩ := List.mem_map.mp hr
        show (d3.heap.read r0.vals).length = _
        rw [Heap.read_length (hw3 r0 hr0), ha3 r0 hr0, hf3]
      have hfv : fieldVal (D.fields ++ [fLine]) fProvince ⟨r.cidr, r.values ++ [rowLine D.fields (lineDb w lq) r]⟩ =
          fieldVal D.fields fProvince ⟨r.cidr, x'.values⟩ := by
        unfold fieldVal
        rw [Offset_append hpline]
        cases hof : Offset fProvince D.fields with
        | none => rfl
        | some i =>
          simp only [Option.bind_some]
          have hi := Operate.Offset_lt hof
          rw [List.getElem?_append_left (by omega), hv]
      have hmem : setOrAdd (D.fields ++ [fLine]) fDistrict
          (districtOf ((fieldVal (D.fields ++ [fLine]) fProvince ⟨r.cidr, r.values ++ [rowLine D.fields (lineDb w lq) r]⟩).getD []))
          ⟨r.cidr, r.values ++ [rowLine D.fields (lineDb w lq) r]⟩ ∈ d4.view.ips := by
        rw [hi4, hil]
        exact List.mem_map.mpr ⟨_, List.mem_map.mpr ⟨r, hr, rfl⟩, rfl⟩
      rw [a1 ip _ h1 ((hsup ip).mpr h2) hmem (by rw [setOrAdd_cidr]; exact hcr), setOrAdd_cidr, hf4, hfv]
      unfold convertedLine
      rw [hrx]
    · refine a2 ip ?_
      rcases hn with h | h | h
      · exact .inl h
      · exact .inr (.inl (fun h' => h ((hsup ip).mp h')))
      · right; right
        intro row hrow hc
        rw [hi4] at hrow
        obtain ⟨r, hr, rfl⟩ := List.mem_map.mp hrow
        rw [setOrAdd_cidr] at hc
        obtain ⟨r3, h3, rfl⟩ := hfrom r hr
        obtain ⟨z, hz, hcz, _⟩ := hone r3 h3 _ hc
        exact h z hz hcz

/-! ## C66: output files of a failed conversion -/

/-- C66: when the input cannot be read, cannot be dumped or the operations fail, no file is touched. -/
theorem C66_input_failure (w : World) (fuel : Nat) (orders : Nat → List Str) (canCreate : Str → Bool) (fs : Fs) (a : Args)
    (hline : a.line = []) (r : Res HData)
    (hr : DumpFile (converterFormats w fuel) fs a.input (ruleText a.rule) (operations w orders none a.lineReplace) = some r)
    (hbad : ∀ d, r ≠ .ok d) :
    ∃ e, converter w fuel orders canCreate fs a = some (fs, e) ∧ e ≠ .ok () := by
  unfold converter
  simp only []
  rw [if_neg (by rw [hline]; simp), hr]
  cases r with
  | ok d => exact absurd rfl (hbad d)
  | err e => exact ⟨_, rfl, by simp⟩
  | panic => exact ⟨_, rfl, by simp⟩

/-- C66: outputs are written one after the other, each only once the ones before succeeded; files that are not outputs are
never touched. -/
theorem C66_only_outputs (reg : Formats) (canCreate : Str → Bool) (os : List Str) (fs : Fs) (d : HData) (n : Str) (hn : n ∉ os) :
    (writeAll reg canCreate os fs d).1 n = fs n := by
  induction os generalizing fs d with
  | nil => rfl
  | cons o os ih =>
    simp only [List.mem_cons, not_or] at hn
    have hp : (PackFile reg canCreate fs o d).1 n = fs n := by
      unfold PackFile
      split
      · rfl
      · split <;> (show (if n = o then _ else fs n) = fs n; rw [if_neg hn.1])
    unfold writeAll
    cases h : PackFile reg canCreate fs o d with
    | mk fs' r =>
      rw [h] at hp
      cases r with
      | ok d' => simp only []; rw [ih fs' d' hn.2]; exact hp
      | err e => exact hp
      | panic => exact hp

/-- C66 is false of the outputs themselves: naming an existing file of a kind that cannot be written (here `x.awdb`, for
every data set and every old content) reports the error and leaves the file empty. -/
theorem C66_negation (w : World) (fuel : Nat) (canCreate : Str → Bool) (fs : Fs) (d : HData) (out : Str)
    (he : ((converterFormats w fuel).GetPackFormat (pathExt out)) = none) (hcc : canCreate out = true) :
    PackFile (converterFormats w fuel) canCreate fs out d = (fs.set out [], .err .unsupportedFormat) ∧
    (fs.set out []) out = some [] := by
  refine ⟨?_, by unfold Fs.set; rw [if_pos rfl]⟩
  unfold PackFile PackWriter
  rw [if_neg (by rw [hcc]; simp), he]

/-- `.awdb` is such a kind. -/
example (w : World) (fuel : Nat) : ((converterFormats w fuel).GetPackFormat (pathExt (gs "x.awdb"))) = none := by
  have h := (C59_builtin w fuel (pathExt (gs "x.awdb"))).2.2.2
  cases e : (converterFormats w fuel).GetPackFormat (pathExt (gs "x.awdb")) with
  | none => rfl
  | some c =>
    rw [e] at h
    have hno : ¬ (pathExt (gs "x.awdb") = gs ".ipdb" ∨ pathExt (gs "x.awdb") = gs ".memip" ∨ pathExt (gs "x.awdb") = gs ".scan") := by
      decide +kernel
    exact absurd (h.mp rfl) hno

/-! ## C67: the server -/

/-- C67: a request for a path is answered with the record of the address written in the path, or 404 when the text is no
address or the lookup fails; never anything else. -/
theorem C67_serve (enc : IpInfo → Bytes) (q : OpenDb) (text : Str) :
    (∀ ip info mask, ParseIP text = some ip → q.query ip = .ok (info, mask) →
      serveQuery enc q (0x2F :: text) = .ok ⟨200, enc info⟩) ∧
    (ParseIP text = none → serveQuery enc q (0x2F :: text) = .ok ⟨404, []⟩) ∧
    (∀ ip e, ParseIP text = some ip → q.query ip = .err e → serveQuery enc q (0x2F :: text) = .ok ⟨404, []⟩) := by
  unfold serveQuery Db.QueryStr Db.Query
  refine ⟨fun ip info mask h1 h2 => ?_, fun h1 => ?_, fun ip e h1 h2 => ?_⟩
  · simp only [h1, h2]
  · simp only [h1]
  · simp only [h1, h2]

/-- C67: serving a packed table: the printed form of every address with a row is answered with its record, every other
request with 404, and no request crashes the handler. -/
theorem C67_serve_packed (w : World) (fuel : Nat) (fs : Fs) (file : Str) (enc : IpInfo → Bytes) {ipd : IpData} (h : RowsOK ipd)
    (hval : ValuesOK ipd) (hd : DisjointRows (rowsOf ipd)) (h2 : 2 ≤ ipd.fields.length)
    (hj : Ipdb.MetaRoundTrip w.encMeta w.decMeta (Ipdb.buildMeta w.now ipd.version ipd.fields)) (b : Bytes)
    (hb : Ipdb.pack w.encMeta w.now ipd = .ok b) (hl : b.length < 2 ^ 32) (hf : fs file = some b) (he : pathExt file = gs ".ipdb") :
    ∃ q, NewDb w (serverFormats w fuel) fs file = .ok q ∧
      (∀ ip row, ValidIP ip → Supports ipd.version ip → row ∈ ipd.ips → Covers row.cidr (addrNum ip) →
        serveQuery enc q (0x2F :: IPString ip) = .ok ⟨200, enc (infoOf ipd.fields row.values)⟩) ∧
      (∀ text, (∀ ip, ParseIP text = some ip → ¬ ∃ row ∈ ipd.ips, Supports ipd.version ip ∧ Covers row.cidr (addrNum ip)) →
        serveQuery enc q (0x2F :: text) = .ok ⟨404, []⟩) ∧
      (∀ text, ∃ r, serveQuery enc q (0x2F :: text) = .ok r ∧ (r.status = 200 ∨ r.status = 404)) := by
  obtain ⟨b', e1, k⟩ := opened_packed (knows_server w fuel) h hval hd h2 hj
  rw [hb] at e1
  injection e1 with e1; subst e1
  obtain ⟨q, o, np, a1, a2⟩ := k hl
  refine ⟨q, ?_, fun ip row g1 g2 g3 g4 => ?_, fun text hn => ?_, fun text => ?_⟩
  · unfold NewDb; rw [hf]; simp only []; rw [he]; exact o
  · obtain ⟨r, p1, p2, p3⟩ := C62_address_num ip g1
    have hv : ValidIP r := .inr p2
    have hs : Supports ipd.version r := by
      unfold Supports at g2 ⊢
      have : (To4 r).isSome = (To4 ip).isSome := by
        rw [Bool.eq_iff_iff, To4_isSome_iff hv, To4_isSome_iff g1, p3]
      rw [this]; exact g2
    exact (C67_serve enc q _).1 r _ _ p1 (a1 r row hv hs g3 (by rw [p3]; exact g4))
  · cases hp : ParseIP text with
    | none => exact (C67_serve enc q text).2.1 hp
    | some ip =>
      refine (C67_serve enc q text).2.2 ip _ hp (a2 ip ?_)
      have := hn ip hp
      by_cases hs : Supports ipd.version ip
      · right; right
        exact fun row hr hc => this ⟨row, hr, hs, hc⟩
      · exact .inr (.inl hs)
  · cases hp : ParseIP text with
    | none => exact ⟨_, (C67_serve enc q text).2.1 hp, .inr rfl⟩
    | some ip =>
      cases hq : q.query ip with
      | ok r => exact ⟨_, (C67_serve enc q text).1 ip r.1 r.2 hp hq, .inl rfl⟩
      | err e => exact ⟨_, (C67_serve enc q text).2.2 ip e hp hq, .inr rfl⟩
      | panic => exact absurd hq (np ip)

end Uip.Program
