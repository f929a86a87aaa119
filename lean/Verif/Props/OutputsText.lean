import Verif.Props.Outputs
import Verif.Props.Plain
import Verif.Proof.NetText
/-!
# C89, text outputs: the `.scan` file a conversion writes, read again
-/
namespace Uip.Program
open Uip Uip.Spec Uip.Operate

/-- No line break. -/
def OneLine (v : Str) : Prop := (0x0A : UInt8) ∉ v ∧ (0x0D : UInt8) ∉ v

instance (v) : Decidable (OneLine v) := by unfold OneLine; infer_instance

def lineTable (m : GoMap Str) : Bool := m.all fun p => !(p.2.contains 0x0A) && !(p.2.contains 0x0D)

theorem lineTable_spec {m : GoMap Str} (h : lineTable m = true) {k v : Str} (hk : mapGet m k = some v) : OneLine v := by
  have := List.all_eq_true.mp h (k, v) (mapGet_mem hk)
  simp only [Bool.and_eq_true, Bool.not_eq_true'] at this
  exact ⟨fun hm => by have h2 := this.1; simp [List.contains_iff_mem, hm] at h2,
    fun hm => by have h2 := this.2; simp [List.contains_iff_mem, hm] at h2⟩

set_option maxRecDepth 100000 in
theorem line_city : lineTable (parseData CityList) = true := by decide +kernel
set_option maxRecDepth 100000 in
theorem line_isp : lineTable (parseData ISPList) = true := by decide +kernel
set_option maxRecDepth 100000 in
theorem line_province : lineTable (parseData ProvinceList) = true := by decide +kernel
theorem line_district : lineTable provinceDistrict = true := by decide +kernel

theorem line_norm {f : Option Str} {v : Str} (h : OneLine v) : OneLine (normValue NormalizedMap f v) := by
  unfold normValue
  split
  · exact h
  · rename_i t ht
    have : lineTable t = true := by
      cases f with
      | none => cases ht
      | some f =>
        rcases NormalizedMap_cases (f := f) ht with h | h | h
        · rw [h.2]; exact line_isp
        · rw [h.2]; exact line_province
        · rw [h.2]; exact line_city
    split
    · rename_i hv; exact lineTable_spec this hv
    · exact h

theorem line_nil : OneLine [] := ⟨by simp, by simp⟩

theorem line_districtOf (p : Str) : OneLine (districtOf p) := by
  rw [districtOf_table]
  split
  · exact line_nil
  · cases e : mapGet provinceDistrict p with
    | none => exact line_nil
    | some v => exact lineTable_spec line_district e

theorem line_settled {D : IpData} {x x' : IpRaw} (hs : Settled D x x') (h : ∀ v ∈ x.values, OneLine v) : ∀ v ∈ x'.values, OneLine v := by
  have hn : ∀ v ∈ (normRow NormalizedMap D.fields x).values, OneLine v := by
    intro v hv
    obtain ⟨i, hi, rfl⟩ := List.getElem_of_mem hv
    unfold normRow at hi ⊢
    simp only [List.length_mapIdx, List.getElem_mapIdx] at hi ⊢
    exact line_norm (h _ (List.getElem_mem _))
  rcases hs with ⟨u, s, m, _, _, _, hc, rfl⟩ | ⟨rfl, _⟩
  · have hm : ∀ m ∈ mainCarriers, OneLine m := by decide +kernel
    unfold setField
    split
    · intro v hv
      rcases List.mem_or_eq_of_mem_set hv with hv | rfl
      · exact hn v hv
      · exact hm _ hc.1
    · exact hn
  · exact hn

/-- A table that can be written as text: field names without the separators, of ordinary size, values without line
breaks. -/
structure TextTable (D : IpData) : Prop where
  fields : ∀ f ∈ D.fields, Avoids [0x2C, 0x0A, 0x0D, 0x7C] f
  size : (joinByte 0x2C D.fields).length ≤ 60000
  values : ∀ r ∈ D.ips, ∀ v ∈ r.values, OneLine v

instance (D : IpData) : Decidable (TextTable D) :=
  decidable_of_iff ((∀ f ∈ D.fields, Avoids [0x2C, 0x0A, 0x0D, 0x7C] f) ∧ (joinByte 0x2C D.fields).length ≤ 60000 ∧
      (∀ r ∈ D.ips, ∀ v ∈ r.values, OneLine v)) ⟨fun h => ⟨h.1, h.2.1, h.2.2⟩, fun h => ⟨h.1, h.2, h.3⟩⟩

/-- The values written for a settled record: its district added. -/
def withDistrict (D : IpData) (v : List Str) : List Str :=
  (setOrAdd D.fields fDistrict (districtOf ((fieldVal D.fields fProvince ⟨⟨[], []⟩, v⟩).getD [])) ⟨⟨[], []⟩, v⟩).values

theorem covers_first {n : IPNet} : Covers n (netLo n) := by
  refine ⟨Nat.le_refl _, ?_⟩
  unfold netEnd netLo
  have := Nat.two_pow_pos (hostBits n)
  omega

/-- Every row that is written comes from a row of the table. -/
theorem EndTable.origin {D : IpData} {d : HData} (hd : EndTable D d) {r : IpRaw} (hr : r ∈ d.view.ips) :
    ∃ x ∈ D.ips, ∃ x', Settled D x x' ∧ r.values = withDistrict D x'.values := by
  obtain ⟨x, hx, hc⟩ := hd.only r hr _ covers_first
  obtain ⟨x', r', hs, hr', hc', _, hv⟩ := hd.covered x hx _ hc
  have h1 := firstMatch_of_disjoint (disjoint_iff.mp hd.disjoint) hr covers_first
  have h2 := firstMatch_of_disjoint (disjoint_iff.mp hd.disjoint) hr' hc'
  rw [h1] at h2
  injection h2 with h2
  exact ⟨x, hx, x', hs, by rw [h2]; exact hv⟩

theorem joinByte_append_length (c : UInt8) (l : List Str) (x : Str) :
    (joinByte c (l ++ [x])).length ≤ (joinByte c l).length + 1 + x.length := by
  rw [Ipdb.joinByte_length, Ipdb.joinByte_length]
  simp only [List.map_append, List.map_cons, List.map_nil, List.sum_append, List.sum_cons, List.sum_nil, List.length_append,
    List.length_singleton]
  omega

theorem end_scanOK {D : IpData} (ht : Table D) (htx : TextTable D) {d : HData} (hd : EndTable D d) : ScanOK d.view := by
  have hdist : ∀ b ∈ fDistrict, b ∉ [(0x2C : UInt8), 0x0A, 0x0D, 0x7C] := by decide +kernel
  have hdl : fDistrict.length ≤ 100 := by decide +kernel
  have hval : ∀ r ∈ d.view.ips, (∀ v ∈ r.values, Fine v) ∧ ∀ v ∈ r.values, OneLine v := by
    intro r hr
    obtain ⟨x, hx, x', hs, hv⟩ := hd.origin hr
    rw [hv]
    refine ⟨?_, ?_⟩
    · have h0 : FineRow x' := fine_settled hs fun v hv => ⟨ht.modest.short x hx v hv, ht.modest.noTab x hx v hv⟩
      exact fine_setOrAdd (x := ⟨⟨[], []⟩, x'.values⟩) h0 (fine_districtOf _)
    · have h1 := line_settled hs (htx.values x hx)
      unfold withDistrict setOrAdd
      split
      · intro v hv
        rcases List.mem_or_eq_of_mem_set hv with hv | rfl
        · exact h1 v hv
        · exact line_districtOf _
      · intro v hv
        rcases List.mem_append.mp hv with hv | hv
        · exact h1 v hv
        · rw [List.mem_singleton.mp hv]; exact line_districtOf _
  have hfl : d.view.fields.length ≤ 201 := by
    show d.fields.length ≤ 201
    rw [hd.fields, addField_length]
    have := ht.modest.fields
    split <;> omega
  refine ⟨hd.rowsOK.1, ?_, fun f hf => ?_, ?_, hd.rowsOK.2, hd.rowsOK.4, fun r hr v hv b hb => ?_, fun r hr => ?_⟩
  · show d.fields.Nodup
    rw [hd.fields]
    unfold addField
    split
    · exact ht.nodup
    · rename_i h
      rw [List.nodup_append]
      refine ⟨ht.nodup, by simp, fun a ha b hb hab => h ?_⟩
      rw [List.mem_singleton.mp hb] at hab
      rw [← hab]; exact ha
  · have hf : f ∈ addField D.fields fDistrict := by rw [← hd.fields]; exact hf
    intro b hb hm
    have h4 : b ∈ [(0x2C : UInt8), 0x0A, 0x0D, 0x7C] := by
      simp only [List.mem_cons, List.not_mem_nil, or_false] at hm ⊢
      rcases hm with h | h | h <;> simp [h]
    unfold addField at hf
    split at hf
    · exact htx.fields f hf b hb h4
    · rcases List.mem_append.mp hf with hf | hf
      · exact htx.fields f hf b hb h4
      · rw [List.mem_singleton.mp hf] at hb; exact hdist b hb h4
  · show (joinByte 0x2C d.fields).length + 5 < 65536
    rw [hd.fields]
    unfold addField
    have := htx.size
    split
    · omega
    · have := joinByte_append_length 0x2C D.fields fDistrict
      omega
  · have h1 := (hval r hr).1 v hv
    have h2 := (hval r hr).2 v hv
    intro hm
    simp only [List.mem_cons, List.not_mem_nil, or_false] at hm
    rcases hm with rfl | rfl | rfl
    · exact h1.2 hb
    · exact h2.1 hb
    · exact h2.2 hb
  · have h1 := joinByte_le (c := 0x2C) (hval r hr).1
    have h2 := IPNetString_length r.cidr
    have h3 := hd.rowsOK.4 r hr
    omega

/-- The table has no row for the last address of a family (a dump of the text stops there, `C44`). -/
def OpenEnded (D : IpData) : Prop :=
  ∀ x ∈ D.ips, ¬ Covers x.cidr (2 ^ 128 - 1) ∧ ¬ Covers x.cidr (0x10000 * 2 ^ 32 - 1)

instance (D) : Decidable (OpenEnded D) := by unfold OpenEnded; infer_instance

/-- The rows ascend, and no row for IPv4 addresses that reaches 255.255.255.255 is followed by others: either no row goes
beyond it, or that address belongs to a larger network. -/
def EndsLast (D : IpData) : Prop :=
  Ascending D.ips ∧ ((∀ x ∈ D.ips, netEnd x.cidr ≤ 0x10000 * 2 ^ 32) ∨
    ∀ x ∈ D.ips, Covers x.cidr (0x10000 * 2 ^ 32 - 1) → netLo x.cidr < 0xffff * 2 ^ 32)

instance (D) : Decidable (EndsLast D) := by unfold EndsLast; infer_instance

theorem ascending_one : ∀ {l : List IpRaw}, Ascending l → ∀ {r s : IpRaw} {y : Nat}, r ∈ l → s ∈ l → Covers r.cidr y → Covers s.cidr y → r = s
  | [], _, _, _, _, hr, _, _, _ => by cases hr
  | a :: l, h, r, s, y, hr, hs, cr, cs => by
    obtain ⟨h1, h2⟩ := List.pairwise_cons.mp h
    rcases List.mem_cons.mp hr with rfl | hr' <;> rcases List.mem_cons.mp hs with rfl | hs'
    · rfl
    · have := h1 s hs'; have := cr.2; have := cs.1; omega
    · have := h1 r hr'; have := cs.2; have := cr.1; omega
    · exact ascending_one h2 hr' hs' cr cs

theorem untilEnd_ascending : ∀ {l : List IpRaw}, Ascending l → (∀ r ∈ l, EndsFamily r.cidr → ∀ s ∈ l, ¬ netEnd r.cidr ≤ netLo s.cidr) →
    untilEnd l = l
  | [], _, _ => rfl
  | a :: l, h, he => by
    obtain ⟨h1, h2⟩ := List.pairwise_cons.mp h
    rw [untilEnd]
    split
    · rename_i hend
      cases l with
      | nil => rfl
      | cons b l => exact absurd (h1 b (by simp)) (he a (by simp) hend b (by simp))
    · rw [untilEnd_ascending h2 fun r hr hx s hs => he r (by simp [hr]) hx s (by simp [hs])]

/-- Nothing of the text a conversion writes is lost when it is read. -/
theorem end_untilEnd {D : IpData} {d : HData} (hd : EndTable D d) (hopen : OpenEnded D ∨ EndsLast D) :
    untilEnd d.view.ips = d.view.ips := by
  rcases hopen with hopen | ⟨hasc, hend⟩
  · have : ∀ l : List IpRaw, (∀ r ∈ l, ¬ EndsFamily r.cidr) → untilEnd l = l := by
      intro l
      induction l with
      | nil => intro _; rfl
      | cons a l ih =>
        intro h
        rw [untilEnd, if_neg (h a (by simp)), ih fun r hr => h r (by simp [hr])]
    refine this _ fun r hr hend => ?_
    rcases hend with hend | ⟨hend, hlo⟩
    · have hc : Covers r.cidr (2 ^ 128 - 1) := by
        have := (covers_first (n := r.cidr)).2
        exact ⟨by omega, by omega⟩
      obtain ⟨x, hx, hcx⟩ := hd.only r hr _ hc
      exact (hopen x hx).1 hcx
    · have hc : Covers r.cidr (0x10000 * 2 ^ 32 - 1) := by
        have := (covers_first (n := r.cidr)).2
        exact ⟨by omega, by omega⟩
      obtain ⟨x, hx, hcx⟩ := hd.only r hr _ hc
      exact (hopen x hx).2 hcx
  · have hasc' := hd.ascending hasc
    refine untilEnd_ascending hasc' fun r hr he s hs hle => ?_
    have hl := (covers_first (n := s.cidr)).2
    rcases he with he | ⟨he, hlo⟩
    · have := (WFNet_bounds (hd.rowsOK.2 s hs)).2
      omega
    · rcases hend with hall | hbig
      · obtain ⟨x, hx, hc⟩ := hd.only s hs _ covers_first
        have := hall x hx
        have := hc.2
        omega
      · have hc : Covers r.cidr (0x10000 * 2 ^ 32 - 1) := by
          have := (covers_first (n := r.cidr)).2
          exact ⟨by omega, by omega⟩
        obtain ⟨x, hx, hcx⟩ := hd.only r hr _ hc
        have hlow := hbig x hx hcx
        obtain ⟨r', hr', m1, m2⟩ := hd.inside hasc x hx
        have hc' : Covers r'.cidr (0x10000 * 2 ^ 32 - 1) := ⟨Nat.le_trans m1 hcx.1, Nat.lt_of_lt_of_le hcx.2 m2⟩
        rw [ascending_one hasc' hr hr' hc hc'] at hlo
        omega

/-- **C89 (texts).** A `.scan` output of a conversion, dumped again with the rule that lists its fields, gives for every
row of the table its settled record with its district (commas replaced), and nothing for other addresses. -/
theorem C89_text (w : World) (fuel : Nat) (D : IpData) (ht : Table D) (htx : TextTable D) (hopen : OpenEnded D ∨ EndsLast D)
    (d : HData) (hd : EndTable D d) (o : Str) (he : pathExt o = gs ".scan") (b : Bytes) (hb : content w d o = .ok b)
    (hver : LineOK (w.encVersion d.version)) (hnow : LineOK w.nowText)
    (v : VersionInfo) (hdec : w.decVersion (w.encVersion d.version) = some (some v)) (fs : Fs) (hf : fs o = some b) :
    ∃ out h, DumpFile (converterFormats w fuel) fs o (Spec.ruleText d.fields []) [] = some (.ok h) ∧ h.view = ⟨d.fields, v, out⟩ ∧
      d.fields = addField D.fields fDistrict ∧
      (∀ x ∈ D.ips, ∀ y, Covers x.cidr y → ∃ x' r, Settled D x x' ∧ r ∈ out ∧ Covers r.cidr y ∧
        OneRecord D r.cidr x'.values ∧ r.values = (withDistrict D x'.values).map noCommas) ∧
      (∀ r ∈ out, ∀ y, Covers r.cidr y → ∃ x ∈ D.ips, Covers x.cidr y) := by
  have hscan := end_scanOK ht htx hd
  have hdef : Export.DefaultsOK d.fields := by
    have hf : ∀ f ∈ d.fields, Avoids [0x2C, 0x0A, 0x0D, 0x7C] f := by
      intro f hf
      rw [hd.fields] at hf
      unfold addField at hf
      split at hf
      · exact htx.fields f hf
      · rcases List.mem_append.mp hf with hf | hf
        · exact htx.fields f hf
        · rw [List.mem_singleton.mp hf]; decide +kernel
    refine ⟨hscan.fields_ne, fun h => ?_, hscan.nodup, fun f hfm c hc hm => hf f hfm c hc ?_⟩
    · have h1 : fProvince ∈ d.fields := by
        rw [hd.fields]; unfold addField; split
        · exact ht.province
        · exact List.mem_append_left _ ht.province
      rw [h] at h1
      exact absurd (List.mem_singleton.mp h1) (by decide +kernel)
    · simp only [List.mem_cons, List.not_mem_nil, or_false] at hm ⊢
      rcases hm with h | h <;> simp [h]
  obtain ⟨text, d', out, h1, h2, h3⟩ := Plain.C44_scan_roundtrip hd.wf hscan hdef hver hnow hdec
  have htext : text = b := by
    unfold content Convert.alone Convert.PackWriter at hb
    rw [if_neg (by show ¬ pathExt o = gs ".ipdb"; rw [he]; decide +kernel), if_pos (by exact he)] at hb
    simp only [h1, Res.ok_bind, Res.pure_eq] at hb
    exact Res.ok.inj hb
  subst htext
  have hall := end_untilEnd hd hopen
  rw [hall] at h3
  obtain ⟨hw0, hv0⟩ := dumped_spec id ⟨d.fields, v, out⟩
  refine ⟨out, dumped id ⟨d.fields, v, out⟩, ?_, hv0, hd.fields, fun x hx y hy => ?_, fun r hr y hy => ?_⟩
  · unfold DumpFile
    rw [hf]
    simp only []
    rw [he, show (converterFormats w fuel).GetDumpFormat (gs ".scan") =
      some (fun b e => withSlices id (some (Plain.dump w.decVersion b e))) from rfl]
    simp only [h2, withSlices, Option.map_some, Res.ok_bind, runOps]
  · obtain ⟨x', r, hs, hr, hc, hone, hv⟩ := hd.covered x hx y hy
    obtain ⟨o', ho', hback⟩ := rel2_mem_left h3 hr
    obtain ⟨_, hsame, hvals, _⟩ := hback
    refine ⟨x', o', hs, ho', ?_, ?_, by rw [hvals, hv]; rfl⟩
    · unfold Covers at hc ⊢; rw [← hsame.1, ← hsame.2]; exact hc
    · intro z hz
      refine hone z ?_
      unfold Covers at hz ⊢; rw [hsame.1, hsame.2]; exact hz
  · obtain ⟨r0, hr0, hback⟩ := rel2_mem_right h3 hr
    obtain ⟨_, hsame, _, _⟩ := hback
    refine hd.only r0 hr0 y ?_
    unfold Covers at hy ⊢; rw [hsame.1, hsame.2]; exact hy

end Uip.Program
