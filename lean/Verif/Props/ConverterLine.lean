import Verif.Props.Converter
import Verif.Props.LineExact
/-!
# C90: conversions with a line database, replacing the carrier

`converter -i input -o output.ipdb -line file -lineReplace`, and `-line file` for every table (with or without a line
field, whatever the capacities of the slices).
-/
namespace Uip.Program
open Uip Uip.Spec Uip.Operate

/-- A conversion whose line step is described by `Q`, from the input table to the answers of the output. -/
theorem convert_with (w : World) (fuel : Nat) (orders : Nat → List Str) (canCreate : Str → Bool) (fs : Fs) (a : Args)
    (cap : Nat → Nat) (D : IpData) (hin : Dumps w fuel fs a cap D) (ht : Table D)
    (lq : OpenDb) (hline : a.line ≠ []) (hlq : NewDb w (converterFormats w fuel) fs a.line = .ok lq)
    (hord : CarrierOrders NormalizedMap D orders)
    (ho : (0x2C : UInt8) ∉ a.output) (he : pathExt a.output = gs ".ipdb") (hcc : canCreate a.output = true)
    (F X : List Str) (Q : HData → IpRaw → IpRaw → Prop) (hF2 : 2 ≤ F.length) (hFl : F.length ≤ 201) (hFp : fProvince ∈ F) (hFc : OneContinent F)
    (hop : ∀ d3 : HData, d3.WF → d3.Aligned → d3.fields = D.fields → (∀ r ∈ d3.rows, ValidIP r.cidr.ip) → (∀ r ∈ d3.view.ips, FineRow r) →
      ∃ dl, (if a.lineReplace then ReplaceLineByCidr w.dec (lineDb w lq) d3 else AttachLineByCidr w.grow w.dec (lineDb w lq) d3) = .ok dl ∧
        dl.WF ∧ dl.Aligned ∧ dl.fields = F ∧ dl.version = { d3.version with extraInfo := d3.version.extraInfo ++ X } ∧
        Rel2 (fun r rl => rl.cidr = r.cidr ∧ FineRow rl ∧ Q d3 r rl) d3.view.ips dl.view.ips)
    (hmeta : Ipdb.MetaRoundTrip w.encMeta w.decMeta (Ipdb.buildMeta w.now
      { D.version with extraInfo := D.version.extraInfo ++ X } (addField F fDistrict))) :
    ∃ fs' b, converter w fuel orders canCreate fs a = some (fs', .ok ()) ∧
      fs' a.output = some b ∧ (∀ n ≠ a.output, fs' n = fs n) ∧
      (b.length < 2 ^ 32 → ∃ q d3, NewDb w (serverFormats w fuel) fs' a.output = .ok q ∧
        (∀ r ∈ d3.rows, WFNet r.cidr ∧ OneRecord D r.cidr (d3.rowView r).values) ∧
        (∀ ip x, ValidIP ip → Supports D.version ip → x ∈ D.ips → Covers x.cidr (addrNum ip) →
          ∃ x' r rl, Settled D x x' ∧ r ∈ d3.view.ips ∧ r.values = x'.values ∧ Covers r.cidr (addrNum ip) ∧ rl.cidr = r.cidr ∧ Q d3 r rl ∧
            q.query ip = .ok (infoOf (addField F fDistrict)
              (setOrAdd F fDistrict (districtOf ((fieldVal F fProvince rl).getD [])) rl).values, maskFor r.cidr ip)) ∧
        (∀ ip, (¬ ValidIP ip ∨ ¬ Supports D.version ip ∨ ∀ x ∈ D.ips, ¬ Covers x.cidr (addrNum ip)) →
          q.query ip = .err .databaseError)) := by
  obtain ⟨data, create, g1, g2, g3⟩ := hin
  obtain ⟨d1, d2, d3, e1, e2, e3, hset, hw3, ha3, hf3, hne3, hver3, hwf3, hdis3, hvals3, hfm, _, _⟩ :=
    default_ops ht cap orders (legal_orders ht hord)
  have hfine2 := fine_table ht hset
  have hfine3 : ∀ r ∈ d3.view.ips, FineRow r := by
    intro r hr
    obtain ⟨r2, hr2, hv⟩ := hvals3 r hr
    intro v hv'; rw [hv] at hv'; exact hfine2 r2 hr2 v hv'
  have hall3 := not_all ht hset hwf3 (disjoint_iff.mp hdis3) hfm
  obtain ⟨hcov, hone⟩ := merged_covers ht hset (disjoint_iff.mp hdis3) hfm
  obtain ⟨dl, el, hwl, hal, hfl, hverl, hil⟩ := hop d3 hw3 ha3 hf3 (fun r hr => (hwf3 _ (List.mem_map.mpr ⟨r, hr, rfl⟩)).1.1) hfine3
  have hcidl : dl.view.ips.map (·.cidr) = d3.view.ips.map (·.cidr) :=
    Rel2.map_eq (f := fun (x : IpRaw) => x.cidr) (g := fun (x : IpRaw) => x.cidr) (hil.imp_mem fun a _ b _ h => h.1)
  have hdisl : DisjointRows (rowsOf dl.view) := by
    rw [disjoint_iff]; exact pairwise_cidr hcidl (disjoint_iff.mp hdis3)
  have hfrom : ∀ r ∈ dl.view.ips, ∃ r3 ∈ d3.view.ips, r.cidr = r3.cidr ∧ FineRow r := by
    intro r hr
    obtain ⟨r3, h3, h⟩ := rel2_mem_right hil hr
    exact ⟨r3, h3, h.1, h.2.1⟩
  obtain ⟨d4, e4, hw4, hf4, hver4, hrows4, hval4, hdis4, hi4⟩ := district_end (grow := w.grow) hwl hal
    (by rw [hfl]; exact hFp) (by rw [hfl]; exact hFc) (by rw [hfl]; exact hFl)
    (fun r hr => by obtain ⟨r3, h3, h, _⟩ := hfrom r hr; rw [h]; exact hwf3 r3 h3)
    (fun r hr => by obtain ⟨r3, h3, h, _⟩ := hfrom r hr; rw [h]; exact hall3 r3 h3) hdisl
    (fun r hr => by obtain ⟨_, _, _, h⟩ := hfrom r hr; exact h)
  rw [hfl] at hf4 hi4
  obtain ⟨b, k1, k2⟩ := finish (w := w) (fuel := fuel) (canCreate := canCreate) (fs := fs) hw4 hrows4 hval4 hdis4
    (by rw [hf4]; exact Nat.le_trans hF2 addField_le)
    (by rw [hf4, hver4, hverl, hver3]; exact hmeta) ho he hcc
  have hsup : ∀ ip, Supports d4.version ip ↔ Supports D.version ip := by
    intro ip; unfold Supports; rw [hver4, hverl, hver3]
  refine ⟨fs.set a.output b, b, ?_, by unfold Fs.set; rw [if_pos rfl], fun n hn => by unfold Fs.set; rw [if_neg hn], fun hl => ?_⟩
  · unfold converter
    simp only []
    rw [if_pos hline, hlq]
    simp only []
    unfold DumpFile
    rw [g1]; simp only []
    rw [g2]; simp only []
    rw [g3]
    have el' : (if a.lineReplace = true then ReplaceLineByCidr w.dec ⟨(lq.versionInfo w).version, (lq.versionInfo w).build, lq.query⟩
        else AttachLineByCidr w.grow w.dec ⟨(lq.versionInfo w).version, (lq.versionInfo w).build, lq.query⟩) d3 = .ok dl := by
      rw [← el]; unfold lineDb; split <;> rfl
    simp only [Option.map_some, Res.ok_bind, operations, List.append_nil, List.cons_append,
      List.nil_append, runOps, e1, e2, e3, el', e4]
    rw [k1]
  · obtain ⟨q, o, a1, a2⟩ := k2 hl _ (knows_server w fuel)
    refine ⟨q, d3, o, fun r hr => ⟨hwf3 _ (List.mem_map.mpr ⟨r, hr, rfl⟩), hone _ (List.mem_map.mpr ⟨r, hr, rfl⟩)⟩, fun ip x h1 h2 h3 h4 => ?_, fun ip hn => ?_⟩
    · obtain ⟨x', r, hs, hr, hcr, hv⟩ := hcov x h3 _ h4
      obtain ⟨rl, hrl, hc, _, hq⟩ := rel2_mem_left hil hr
      refine ⟨x', r, rl, hs, hr, hv, hcr, hc, hq, ?_⟩
      have hmem : setOrAdd F fDistrict (districtOf ((fieldVal F fProvince rl).getD [])) rl ∈ d4.view.ips := by
        rw [hi4]
        exact List.mem_map.mpr ⟨_, hrl, rfl⟩
      rw [a1 ip _ h1 ((hsup ip).mpr h2) hmem (by rw [setOrAdd_cidr, hc]; exact hcr), setOrAdd_cidr, hf4, hc]
    · refine a2 ip ?_
      rcases hn with h | h | h
      · exact .inl h
      · exact .inr (.inl (fun h' => h ((hsup ip).mp h')))
      · right; right
        intro row hrow hc
        rw [hi4] at hrow
        obtain ⟨r, hr, rfl⟩ := List.mem_map.mp hrow
        rw [setOrAdd_cidr] at hc
        obtain ⟨r3, h3, hcid, _⟩ := hfrom r hr
        rw [hcid] at hc
        obtain ⟨z, hz, hcz, _⟩ := hone r3 h3 _ hc
        exact h z hz hcz

theorem lastWriter_mem {f : HRow → Option Str} {a : Nat} {rows : List HRow} {v : Str} (h : lastWriter f a rows = some v) :
    ∃ r ∈ rows, r.vals.arr = a ∧ f r = some v := by
  unfold lastWriter at h
  have := List.mem_of_getLast? h
  obtain ⟨r, hr, hf⟩ := List.mem_filterMap.mp this
  by_cases ha : r.vals.arr = a
  · rw [if_pos ha] at hf; exact ⟨r, hr, ha, hf⟩
  · rw [if_neg ha] at hf; cases hf

theorem lastWriter_none {f : HRow → Option Str} {rows : List HRow} {r : HRow} (hr : r ∈ rows) (h : lastWriter f r.vals.arr rows = none) :
    f r = none := by
  unfold lastWriter at h
  rw [List.getLast?_eq_none_iff] at h
  cases hf : f r with
  | none => rfl
  | some v =>
    have : v ∈ rows.filterMap (fun x => if x.vals.arr = r.vals.arr then f x else none) :=
      List.mem_filterMap.mpr ⟨r, hr, by rw [if_pos rfl, hf]⟩
    rw [h] at this; cases this

/-- Rows on one array have the same values. -/
theorem same_values {d : HData} (ha : d.Aligned) {r s : HRow} (hr : r ∈ d.rows) (hs : s ∈ d.rows) (h : s.vals.arr = r.vals.arr) :
    (d.rowView s).values = (d.rowView r).values := by
  show d.heap.read s.vals = d.heap.read r.vals
  have h1 : s.vals.len = r.vals.len := by rw [ha s hs, ha r hr]
  have : s.vals = r.vals := by
    rcases hs' : s.vals with ⟨a, l⟩
    rcases hr' : r.vals with ⟨a', l'⟩
    rw [hs', hr'] at h h1
    simp only at h h1
    rw [h, h1]
  rw [this]

theorem rowLine_fine (fs : List Str) (line : LineDb) (x : IpRaw) : Fine (rowLine fs line x) := by
  unfold rowLine
  split
  · exact fine_lineAt _ _
  · exact fine_nil

/-- A settled record `v` with its carrier replaced by a line, unless the line is empty. -/
def withLine (D : IpData) (l : Str) (v : List Str) : List Str :=
  if l = [] then v else (setField D.fields fISP l ⟨⟨[], []⟩, v⟩).values

/-- What the line step of a `-lineReplace` run does to a row. -/
def Replaced (D : IpData) (line : LineDb) (d3 : HData) (r rl : IpRaw) : Prop :=
  ∃ l, rl.values = withLine D l r.values ∧ (l = [] → rowLine D.fields line r = []) ∧
    (l ≠ [] → ∃ s ∈ d3.rows, (d3.rowView s).values = r.values ∧ l = rowLine D.fields line (d3.rowView s))

theorem setField_values (fs : List Str) (f v : Str) {x y : IpRaw} (h : x.values = y.values) :
    (setField fs f v x).values = (setField fs f v y).values := by
  unfold setField; split <;> simp [h]

theorem replaced_step (dec : Int → Str) (line : LineDb) {D : IpData} (hc : fCountry ∈ D.fields) (hi : fISP ∈ D.fields)
    {d3 : HData} (hw : d3.WF) (ha : d3.Aligned) (hf : d3.fields = D.fields) (hq : ∀ r ∈ d3.rows, line.query r.cidr.ip ≠ .panic)
    (hfine : ∀ r ∈ d3.view.ips, FineRow r) :
    ∃ dl, ReplaceLineByCidr dec line d3 = .ok dl ∧ dl.WF ∧ dl.Aligned ∧ dl.fields = D.fields ∧
      dl.version = { d3.version with extraInfo := d3.version.extraInfo ++ [line.version ++ 0x2D :: dec line.build] } ∧
      Rel2 (fun r rl => rl.cidr = r.cidr ∧ FineRow rl ∧ Replaced D line d3 r rl) d3.view.ips dl.view.ips := by
  obtain ⟨dl, e, hwl, hal, _, hfl, hvl, hil⟩ := C41_exact dec line d3 hw ha (by rw [hf]; exact hc) (by rw [hf]; exact hi) hq
  refine ⟨dl, e, hwl, hal, by rw [hfl, hf], hvl, ?_⟩
  rw [hil, hf]
  have key : ∀ (rows : List HRow), (∀ r ∈ rows, r ∈ d3.rows) → ∀ g : HRow → IpRaw,
      (∀ r ∈ d3.rows, (g r).cidr = (d3.rowView r).cidr ∧ FineRow (g r) ∧ Replaced D line d3 (d3.rowView r) (g r)) →
      Rel2 (fun r rl => rl.cidr = r.cidr ∧ FineRow rl ∧ Replaced D line d3 r rl) (rows.map d3.rowView) (rows.map g) := by
    intro rows
    induction rows with
    | nil => intro _ _ _; exact .nil
    | cons r rs ih =>
      intro hm g hg
      exact .cons (hg r (hm r (by simp))) (ih (fun x hx => hm x (by simp [hx])) g hg)
  refine key d3.rows (fun r h => h) _ fun r hr => ?_
  cases hl : lastWriter (fun r => if rowLine D.fields line (d3.rowView r) = [] then none
      else some (rowLine D.fields line (d3.rowView r))) r.vals.arr d3.rows with
  | none =>
    have h0 := lastWriter_none hr hl
    refine ⟨rfl, hfine _ (List.mem_map.mpr ⟨r, hr, rfl⟩), [], by simp [withLine], fun _ => ?_, fun h => absurd rfl h⟩
    by_cases h : rowLine D.fields line (d3.rowView r) = []
    · exact h
    · simp only [if_neg h] at h0; cases h0
  | some l =>
    obtain ⟨s, hs, harr, hv⟩ := lastWriter_mem hl
    by_cases h : rowLine D.fields line (d3.rowView s) = []
    · simp only [if_pos h] at hv; cases hv
    · simp only [if_neg h] at hv
      injection hv with hv
      refine ⟨setField_cidr _ _ _ _, fine_setField (hfine _ (List.mem_map.mpr ⟨r, hr, rfl⟩)) (by rw [← hv]; exact rowLine_fine _ _ _),
        l, ?_, fun h' => absurd (hv.trans h') h, fun _ => ⟨s, hs, same_values ha hr hs harr, hv.symm⟩⟩
      unfold withLine
      rw [if_neg (by rw [← hv]; exact h)]
      exact setField_values _ _ _ rfl

/-- **C90.** `-line file -lineReplace`: the answers are those of C64 with the carrier of Chinese records replaced by a line:
the line at the first address of a network of the same record, and the carrier stays only when the line at the first
address of the answered network is empty. -/
theorem C90_replace (w : World) (fuel : Nat) (orders : Nat → List Str) (canCreate : Str → Bool) (fs : Fs) (a : Args)
    (cap : Nat → Nat) (D : IpData) (hin : Dumps w fuel fs a cap D) (ht : Table D) (hc : fCountry ∈ D.fields)
    (lq : OpenDb) (hline : a.line ≠ []) (hlq : NewDb w (converterFormats w fuel) fs a.line = .ok lq)
    (hlp : ∀ ip, ValidIP ip → lq.query ip ≠ .panic) (hrep : a.lineReplace = true)
    (hord : CarrierOrders NormalizedMap D orders)
    (ho : (0x2C : UInt8) ∉ a.output) (he : pathExt a.output = gs ".ipdb") (hcc : canCreate a.output = true)
    (hmeta : Ipdb.MetaRoundTrip w.encMeta w.decMeta (Ipdb.buildMeta w.now
      { D.version with extraInfo := D.version.extraInfo ++ [(lq.versionInfo w).version ++ 0x2D :: w.dec (lq.versionInfo w).build] }
      (addField D.fields fDistrict))) :
    ∃ fs' b, converter w fuel orders canCreate fs a = some (fs', .ok ()) ∧
      fs' a.output = some b ∧ (∀ n ≠ a.output, fs' n = fs n) ∧
      (b.length < 2 ^ 32 → ∃ q, NewDb w (serverFormats w fuel) fs' a.output = .ok q ∧
        (∀ ip x, ValidIP ip → Supports D.version ip → x ∈ D.ips → Covers x.cidr (addrNum ip) →
          ∃ x' n l, Settled D x x' ∧ Covers n (addrNum ip) ∧ OneRecord D n x'.values ∧
            (l = [] → rowLine D.fields (lineDb w lq) ⟨n, x'.values⟩ = []) ∧
            (l ≠ [] → ∃ n', WFNet n' ∧ OneRecord D n' x'.values ∧ l = rowLine D.fields (lineDb w lq) ⟨n', x'.values⟩) ∧
            q.query ip = .ok (converted D (withLine D l x'.values), maskFor n ip)) ∧
        (∀ ip, (¬ ValidIP ip ∨ ¬ Supports D.version ip ∨ ∀ x ∈ D.ips, ¬ Covers x.cidr (addrNum ip)) →
          q.query ip = .err .databaseError)) := by
  have hi : fISP ∈ D.fields := by
    obtain ⟨i, j, h1, _⟩ := ht.usable
    exact List.mem_of_getElem? (Offset_some h1).1
  obtain ⟨fs', b, r1, r2, r3, r4⟩ := convert_with w fuel orders canCreate fs a cap D hin ht lq hline hlq hord ho he hcc D.fields
    [(lq.versionInfo w).version ++ 0x2D :: w.dec (lq.versionInfo w).build] (Replaced D (lineDb w lq)) (two_fields ht)
    (by have := ht.modest.fields; omega) ht.province ht.continent
    (fun d3 hw ha hf hv hfine => by
      rw [if_pos hrep]
      exact replaced_step w.dec (lineDb w lq) hc hi hw ha hf (fun r hr => hlp _ (hv r hr)) hfine) hmeta
  refine ⟨fs', b, r1, r2, r3, fun hl => ?_⟩
  obtain ⟨q, d3, o, hrows, k1, k2⟩ := r4 hl
  refine ⟨q, o, fun ip x h1 h2 h3 h4 => ?_, k2⟩
  obtain ⟨x', r, rl, hs, hr, hv, hcov, hcid, ⟨l, hlv, hl0, hl1⟩, e⟩ := k1 ip x h1 h2 h3 h4
  have hr' : r = ⟨r.cidr, x'.values⟩ := by rw [← hv]
  obtain ⟨r0, hr0, hr0e⟩ := List.mem_map.mp hr
  refine ⟨x', r.cidr, l, hs, hcov, ?_, fun h => ?_, fun h => ?_, ?_⟩
  · have := (hrows r0 hr0).2
    rw [← hv, ← hr0e]; exact this
  · rw [← hr']; exact hl0 h
  · obtain ⟨s, hs', hsv, hsl⟩ := hl1 h
    refine ⟨s.cidr, (hrows s hs').1, ?_, ?_⟩
    · have := (hrows s hs').2
      rw [hsv, hv] at this; exact this
    · rw [hsl]
      have : d3.rowView s = ⟨s.cidr, x'.values⟩ := by
        rw [← hv, ← hsv]; rfl
      rw [this]
  · rw [e, ]
    unfold converted
    have hrl : rl.values = withLine D l x'.values := by rw [hlv, hv]
    rw [fieldVal_values (x := rl) (y := ⟨⟨[], []⟩, withLine D l x'.values⟩) hrl,
        setOrAdd_values _ _ _ (x := rl) (y := ⟨⟨[], []⟩, withLine D l x'.values⟩) hrl]

/-- The answer for a settled record `v` with the line `l`: the line set (or added), then the district. -/
def convertedAttach (D : IpData) (l : Str) (v : List Str) : IpInfo :=
  infoOf (addField (addField D.fields fLine) fDistrict)
    (setOrAdd (addField D.fields fLine) fDistrict
      (districtOf ((fieldVal (addField D.fields fLine) fProvince (setOrAdd D.fields fLine l ⟨⟨[], []⟩, v⟩)).getD []))
      (setOrAdd D.fields fLine l ⟨⟨[], []⟩, v⟩)).values

/-- What the line step of a run without `-lineReplace` does to a row. -/
def Attached (D : IpData) (line : LineDb) (d3 : HData) (r rl : IpRaw) : Prop :=
  ∃ s ∈ d3.rows, (d3.rowView s).values = r.values ∧ rl = setOrAdd D.fields fLine (rowLine D.fields line (d3.rowView s)) r

theorem attached_step (grow : Nat → Nat) (dec : Int → Str) (line : LineDb) {D : IpData} (hc : fCountry ∈ D.fields)
    {d3 : HData} (hw : d3.WF) (ha : d3.Aligned) (hf : d3.fields = D.fields) (hq : ∀ r ∈ d3.rows, line.query r.cidr.ip ≠ .panic)
    (hfine : ∀ r ∈ d3.view.ips, FineRow r) :
    ∃ dl, AttachLineByCidr grow dec line d3 = .ok dl ∧ dl.WF ∧ dl.Aligned ∧ dl.fields = addField D.fields fLine ∧
      dl.version = { d3.version with extraInfo := d3.version.extraInfo ++ [line.version ++ 0x2D :: dec line.build] } ∧
      Rel2 (fun r rl => rl.cidr = r.cidr ∧ FineRow rl ∧ Attached D line d3 r rl) d3.view.ips dl.view.ips := by
  obtain ⟨dl, e, hwl, hal, hfl, hvl, hil⟩ := C40_exact grow dec line d3 hw ha (by rw [hf]; exact hc) hq
  refine ⟨dl, e, hwl, hal, by rw [hfl, hf], hvl, ?_⟩
  rw [hil, hf]
  have key : ∀ (rows : List HRow), (∀ r ∈ rows, r ∈ d3.rows) → ∀ g : HRow → IpRaw,
      (∀ r ∈ d3.rows, (g r).cidr = (d3.rowView r).cidr ∧ FineRow (g r) ∧ Attached D line d3 (d3.rowView r) (g r)) →
      Rel2 (fun r rl => rl.cidr = r.cidr ∧ FineRow rl ∧ Attached D line d3 r rl) (rows.map d3.rowView) (rows.map g) := by
    intro rows
    induction rows with
    | nil => intro _ _ _; exact .nil
    | cons r rs ih =>
      intro hm g hg
      exact .cons (hg r (hm r (by simp))) (ih (fun x hx => hm x (by simp [hx])) g hg)
  refine key d3.rows (fun r h => h) _ fun r hr => ?_
  obtain ⟨s, hs, hsv, hsl⟩ : ∃ s ∈ d3.rows, (d3.rowView s).values = (d3.rowView r).values ∧
      settledLine line d3 r = rowLine D.fields line (d3.rowView s) := by
    unfold settledLine
    split
    · have hsome := lastWriter_isSome (f := fun r => rowLine d3.fields line (d3.rowView r)) hr
      cases hl : lastWriter (fun r => some (rowLine d3.fields line (d3.rowView r))) r.vals.arr d3.rows with
      | none => rw [hl] at hsome; cases hsome
      | some v =>
        obtain ⟨s, hs, harr, hv⟩ := lastWriter_mem hl
        injection hv with hv
        exact ⟨s, hs, same_values ha hr hs harr, by rw [← hf, hv]; rfl⟩
    · exact ⟨r, hr, rfl, by rw [hf]⟩
  refine ⟨setOrAdd_cidr _ _ _ _, fine_setOrAdd (hfine _ (List.mem_map.mpr ⟨r, hr, rfl⟩)) (by rw [hsl]; exact rowLine_fine _ _ _),
    s, hs, hsv, by rw [hsl]⟩

/-- **C90 (attaching).** `-line file` on any table with a country field (one with a line field included): every answer has
the line at the first address of a network of the same record. -/
theorem C90_attach (w : World) (fuel : Nat) (orders : Nat → List Str) (canCreate : Str → Bool) (fs : Fs) (a : Args)
    (cap : Nat → Nat) (D : IpData) (hin : Dumps w fuel fs a cap D) (ht : Table D) (hc : fCountry ∈ D.fields)
    (lq : OpenDb) (hline : a.line ≠ []) (hlq : NewDb w (converterFormats w fuel) fs a.line = .ok lq)
    (hlp : ∀ ip, ValidIP ip → lq.query ip ≠ .panic) (hrep : a.lineReplace = false)
    (hord : CarrierOrders NormalizedMap D orders)
    (ho : (0x2C : UInt8) ∉ a.output) (he : pathExt a.output = gs ".ipdb") (hcc : canCreate a.output = true)
    (hmeta : Ipdb.MetaRoundTrip w.encMeta w.decMeta (Ipdb.buildMeta w.now
      { D.version with extraInfo := D.version.extraInfo ++ [(lq.versionInfo w).version ++ 0x2D :: w.dec (lq.versionInfo w).build] }
      (addField (addField D.fields fLine) fDistrict))) :
    ∃ fs' b, converter w fuel orders canCreate fs a = some (fs', .ok ()) ∧
      fs' a.output = some b ∧ (∀ n ≠ a.output, fs' n = fs n) ∧
      (b.length < 2 ^ 32 → ∃ q, NewDb w (serverFormats w fuel) fs' a.output = .ok q ∧
        (∀ ip x, ValidIP ip → Supports D.version ip → x ∈ D.ips → Covers x.cidr (addrNum ip) →
          ∃ x' n n', Settled D x x' ∧ Covers n (addrNum ip) ∧ OneRecord D n x'.values ∧ WFNet n' ∧ OneRecord D n' x'.values ∧
            q.query ip = .ok (convertedAttach D (rowLine D.fields (lineDb w lq) ⟨n', x'.values⟩) x'.values, maskFor n ip)) ∧
        (∀ ip, (¬ ValidIP ip ∨ ¬ Supports D.version ip ∨ ∀ x ∈ D.ips, ¬ Covers x.cidr (addrNum ip)) →
          q.query ip = .err .databaseError)) := by
  obtain ⟨fs', b, r1, r2, r3, r4⟩ := convert_with w fuel orders canCreate fs a cap D hin ht lq hline hlq hord ho he hcc
    (addField D.fields fLine)
    [(lq.versionInfo w).version ++ 0x2D :: w.dec (lq.versionInfo w).build] (Attached D (lineDb w lq))
    (Nat.le_trans (two_fields ht) addField_le)
    (by rw [addField_length]; have := ht.modest.fields; split <;> omega)
    (by unfold addField; split
        · exact ht.province
        · exact List.mem_append_left _ ht.province)
    (oneContinent_add ht.continent (by decide +kernel))
    (fun d3 hw ha hf hv hfine => by
      rw [if_neg (by rw [hrep]; simp)]
      exact attached_step w.grow w.dec (lineDb w lq) hc hw ha hf (fun r hr => hlp _ (hv r hr)) hfine) hmeta
  refine ⟨fs', b, r1, r2, r3, fun hl => ?_⟩
  obtain ⟨q, d3, o, hrows, k1, k2⟩ := r4 hl
  refine ⟨q, o, fun ip x h1 h2 h3 h4 => ?_, k2⟩
  obtain ⟨x', r, rl, hs, hr, hv, hcov, hcid, ⟨s, hs', hsv, hsl⟩, e⟩ := k1 ip x h1 h2 h3 h4
  obtain ⟨r0, hr0, hr0e⟩ := List.mem_map.mp hr
  have hsr : d3.rowView s = ⟨s.cidr, x'.values⟩ := by
    rw [← hv, ← hsv]; rfl
  refine ⟨x', r.cidr, s.cidr, hs, hcov, ?_, (hrows s hs').1, ?_, ?_⟩
  · have := (hrows r0 hr0).2
    rw [← hv, ← hr0e]; exact this
  · have := (hrows s hs').2
    rw [hsv, hv] at this; exact this
  · rw [e]
    unfold convertedAttach
    rw [hsr] at hsl
    have hrl : rl.values = (setOrAdd D.fields fLine (rowLine D.fields (lineDb w lq) ⟨s.cidr, x'.values⟩) ⟨⟨[], []⟩, x'.values⟩).values := by
      rw [hsl]; exact setOrAdd_values _ _ _ hv
    rw [fieldVal_values hrl, setOrAdd_values _ _ _ hrl]

end Uip.Program
