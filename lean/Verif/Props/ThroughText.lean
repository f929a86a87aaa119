import Verif.Props.Again
import Verif.Props.OutputsAll
import Verif.Props.ConvertedReaders
/-!
# C120: converting through a `.scan` text

The text form is no detour with side effects: what a conversion writes as `.scan` text, converted to `.ipdb`, is what
converting the direct `.ipdb` output again gives (C118), byte for byte, and answers every address as the direct output does.
-/
namespace Uip.Program
open Uip Uip.Spec Uip.Operate
open Uip.Export (sevenFields defaultKeeps)
open Uip.Dump (Walked)

/-! ## Reading a row back with the default rule -/

theorem spelled_of_no_code {v : Str} (h : spellCode v = []) : spellContinent v = v := by
  unfold spellCode at h
  unfold spellContinent
  cases hf : continentTable.find? (fun p => decide (p.1 = v)) with
  | none => rfl
  | some p =>
    rw [hf] at h
    have hall : ∀ p ∈ continentTable, p.2 ≠ [] := by decide +kernel
    exact absurd h (hall p (List.mem_of_find?_eq_some hf))

theorem rule_of_record {i : Nat} {f v : Str} {values : List Str} (hl : values.length = sevenFields.length)
    (hf : sevenFields[i]? = some f) (hv : values[i]? = some v) :
    ruleValue (Plain.fieldToMap sevenFields) (Plain.record sevenFields values) f = v := by
  unfold ruleValue
  rw [Plain.fieldToMap_get, if_pos (List.mem_of_getElem? hf)]
  simp only []
  rw [Plain.record_get (by decide +kernel) hl hf hv]
  rfl

/-- The default rule, applied to a line with the values of `j`. -/
theorem keeps_record (j : IpInfo) :
    defaultKeeps (ruleValue (Plain.fieldToMap sevenFields) (Plain.record sevenFields (vals j)) (gs "country"))
      (ruleValue (Plain.fieldToMap sevenFields) (Plain.record sevenFields (vals j)) (gs "province"))
      (ruleValue (Plain.fieldToMap sevenFields) (Plain.record sevenFields (vals j)) (gs "city"))
      (ruleValue (Plain.fieldToMap sevenFields) (Plain.record sevenFields (vals j)) (gs "isp"))
      (ruleValue (Plain.fieldToMap sevenFields) (Plain.record sevenFields (vals j)) (gs "asn"))
      (ruleValue (Plain.fieldToMap sevenFields) (Plain.record sevenFields (vals j)) (gs "continent"))
      (ruleValue (Plain.fieldToMap sevenFields) (Plain.record sevenFields (vals j)) (gs "district")) = vals (ruled j) := by
  have hl : (vals j).length = sevenFields.length := rfl
  rw [rule_of_record (i := 0) hl rfl rfl, rule_of_record (i := 1) hl rfl rfl, rule_of_record (i := 2) hl rfl rfl,
    rule_of_record (i := 3) hl rfl rfl, rule_of_record (i := 4) hl rfl rfl, rule_of_record (i := 5) hl rfl rfl,
    rule_of_record (i := 6) hl rfl rfl, keeps_ruled]

/-! ## The text -/

/-- The version `v`, whatever the row count in it, passes through the header of a `.scan` text. -/
def CarriesVersion (w : World) (v : VersionInfo) : Prop :=
  ∀ c, LineOK (w.encVersion { v with count := c }) ∧
    ∃ v', w.decVersion (w.encVersion { v with count := c }) = some (some v') ∧ SameRelease v v'

/-- The answers can stand in a line of a `.scan` text: no line breaks, no commas. -/
def Lined (i : IpInfo) : Prop :=
  ∀ v ∈ [i.country, i.province, i.city, i.isp, i.asn, i.continent, i.district], OneLine v ∧ (0x2C : UInt8) ∉ v

instance (i) : Decidable (Lined i) := by unfold Lined; infer_instance

/-- What `C120` asks of a run that reads the text. -/
structure TextRun (a : Args) (canCreate : Str → Bool) : Prop where
  kind : pathExt a.input = gs ".scan"
  rule : a.rule = gs "default"
  line : a.line = []
  single : (0x2C : UInt8) ∉ a.output
  target : pathExt a.output = gs ".ipdb"
  creates : canCreate a.output = true

/-- The table the text of `d` is read as with the default rule. -/
theorem text_dumps {w : World} {D : IpData} (ht : Table D) (htx : TextTable D) (hopen : OpenEnded D ∨ EndsLast D)
    (hcom : CommaFree D) {d : HData} (hd : EndTable D d) (h7 : D.fields = sevenFields) {v : VersionInfo}
    (hver : LineOK (w.encVersion d.version)) (hnow : LineOK w.nowText)
    (hdec : w.decVersion (w.encVersion d.version) = some (some v)) :
    ∃ text out, (∀ o, pathExt o = gs ".scan" → content w d o = .ok text) ∧
      (∀ (fuel : Nat) (fs : Fs) (a : Args) (can : Str → Bool), TextRun a can → fs a.input = some text → Dumps w fuel fs a id ⟨sevenFields, v, out⟩) ∧
      Rel2 (fun r z => SameNet r.cidr z.cidr ∧ WFNet z.cidr ∧ ∀ j, r.values = vals j → z.values = vals (ruled j)) d.view.ips out := by
  have hscan := end_scanOK ht htx hd
  have hf7 : d.fields = sevenFields := by
    rw [hd.fields, h7]; decide +kernel
  obtain ⟨d', hp, _⟩ := Plain.pack_text (enc := w.encVersion) (now := w.nowText) hd.wf
  obtain ⟨e, he1, he2, he3⟩ := default_export
  obtain ⟨out, k1, k2⟩ := Plain.dump_packed hscan hver hnow hdec (rs := d.view.ips) (fun r h => h) (some e)
  rw [end_untilEnd hd hopen] at k2
  refine ⟨Plain.header (w.encVersion d.version) w.nowText d.fields ++ Plain.unlines (d.view.ips.map Plain.rowLine), out,
    fun o he => ?_, fun fuel fs a can hrun hfs => ?_, ?_⟩
  · unfold content Convert.alone Convert.PackWriter
    rw [if_neg (by show ¬ pathExt o = gs ".ipdb"; rw [he]; decide +kernel), if_pos (by exact he)]
    simp only [hp, Res.ok_bind, Res.pure_eq]
  · refine ⟨_, fun b e => withSlices id (some (Plain.dump w.decVersion b e)), hfs, ?_, ?_⟩
    · rw [hrun.kind]; rfl
    · rw [hrun.rule]
      have hr : ruleText (gs "default") = Export.DefaultRule := by unfold ruleText; exact if_pos rfl
      rw [hr, he1]
      rw [show d.view.fields = d.fields from rfl, Option.map_some, Option.getD_some, he2] at k1
      simp only [k1, withSlices, Option.map_some, Res.ok_bind]
  · refine k2.imp_mem fun r hr z hz h => ⟨h.1.same, h.1.wf, fun j hj => ?_⟩
    have hno : r.values.map noCommas = r.values := by
      conv => rhs; rw [← List.map_id r.values]
      refine List.map_congr_left fun u hu => ?_
      exact Convert.noCommas_eq (end_noCommas ht hcom hd r hr u hu)
    have h3 := h.2
    rw [hno, hj] at h3
    simp only [Plain.rowValues, Option.map_some, Option.getD_some] at h3
    rw [show d.view.fields = d.fields from rfl, hf7, he3, keeps_record] at h3
    exact (Res.ok.inj h3).symm

/-! ## The conversion -/

section
variable {w : World} {fuel : Nat} {orders : Nat → List Str} {canCreate : Str → Bool} {fs : Fs} {a : Args} {Q : Ipdb.Querier}

/-- Networks that cover a common address share one of the addresses `W`, when each has one. -/
theorem nets_shared {W : IP → Prop} {m n : IPNet} (wm : WFNet m) (wn : WFNet n) (hm : ∃ ip, W ip ∧ Covers m (addrNum ip))
    (hn : ∃ ip, W ip ∧ Covers n (addrNum ip)) {y : Nat} (cm : Covers m y) (cn : Covers n y) :
    ∃ ip, W ip ∧ Covers m (addrNum ip) ∧ Covers n (addrNum ip) := by
  obtain ⟨p, hp, cp⟩ := hm
  obtain ⟨q, hq, cq⟩ := hn
  have bx := (WFNet_bounds wm).1
  have bz := (WFNet_bounds wn).1
  have ex : netEnd m = netLo m + 2 ^ hostBits m := rfl
  have ez : netEnd n = netLo n + 2 ^ hostBits n := rfl
  unfold Covers at *
  rcases Nat.le_total (hostBits m) (hostBits n) with hle | hle
  · refine ⟨p, hp, cp, ?_⟩
    rcases laminar bx bz hle with h | h | h <;> omega
  · refine ⟨q, hq, ?_, cq⟩
    rcases laminar bz bx hle with h | h | h <;> omega

theorem sameNet_covers {m n : IPNet} (h : SameNet m n) (y : Nat) : Covers m y ↔ Covers n y := by
  unfold Covers; rw [h.1, h.2]

/-- The rows written for a described table: each holds addresses of the family, and the values of a settled answer. -/
theorem end_rows {v : VersionInfo} {K : IP → IpInfo → Prop} {D : IpData} (hdes : Describes v K D) (hasc : Ascending D.ips)
    {d : HData} (hd : EndTable D d) {r : IpRaw} (hr : r ∈ d.view.ips) :
    (∃ ip, Walked v ip ∧ Covers r.cidr (addrNum ip)) ∧ ∃ i m, AnswersOn (Walked v) K i ∧
      r.values = vals { cleaned i with isp := m, district := districtOf (cleaned i).province } := by
  constructor
  · obtain ⟨x, hx, hc⟩ := hd.only r hr _ covers_first
    obtain ⟨r', hr', m1, m2⟩ := hd.inside hasc x hx
    have hc' : Covers r'.cidr (netLo r.cidr) := ⟨Nat.le_trans m1 hc.1, Nat.lt_of_lt_of_le hc.2 m2⟩
    obtain rfl := ascending_one (hd.ascending hasc) hr hr' covers_first hc'
    obtain ⟨ip, hw, hcip⟩ := hdes.from_ x hx
    exact ⟨ip, hw, Nat.le_trans m1 hcip.1, Nat.lt_of_lt_of_le hcip.2 m2⟩
  · obtain ⟨x, hx, x', hs, hv⟩ := hd.origin hr
    obtain ⟨i, hi, hvi⟩ := hdes.on.val x hx
    obtain ⟨m, hm⟩ := hdes.on.settled_vals hvi hs
    refine ⟨i, m, hi, ?_⟩
    rw [hv, hm]
    exact packed_isp hdes.fields (cleaned i) m

/-- One output. -/
theorem write_one {w : World} {fuel : Nat} {canCreate : Str → Bool} {fs : Fs} {d : HData} (hw : d.WF) {o : Str} {b : Bytes}
    (ho : (0x2C : UInt8) ∉ o) (hc : canCreate o = true) (hb : content w d o = .ok b) :
    writeAll (converterFormats w fuel) canCreate (splitByte 0x2C o) fs d = (fs.set o b, .ok ()) := by
  rw [splitByte_none ho]
  obtain ⟨fs', k1, k2, k3⟩ := C89_written w fuel canCreate fs d hw [o] (by simp) (fun p hp => by
    rw [List.mem_singleton.mp hp]; exact ⟨hc, b, hb⟩)
  rw [k1]
  congr 1
  funext n
  unfold Fs.set
  split
  · rename_i h
    rw [h, k2 o (by simp)]
    unfold written; rw [hb]
  · rename_i h
    exact k3 n (by simp [h])

theorem ascending_same {l l' : List IpRaw} {R : IpRaw → IpRaw → Prop} (h : Rel2 R l l') (hs : ∀ r z, R r z → SameNet r.cidr z.cidr)
    (ha : Ascending l) : Ascending l' := by
  have e : l'.map (fun x => (netLo x.cidr, netEnd x.cidr)) = l.map (fun x => (netLo x.cidr, netEnd x.cidr)) :=
    Rel2.map_eq (f := fun (x : IpRaw) => (netLo x.cidr, netEnd x.cidr)) (g := fun (x : IpRaw) => (netLo x.cidr, netEnd x.cidr))
      (h.imp_mem fun a _ b _ h => by rw [(hs a b h).1, (hs a b h).2])
  unfold Ascending at ha ⊢
  have h1 : (l.map fun x => (netLo x.cidr, netEnd x.cidr)).Pairwise fun a b => a.2 ≤ b.1 := List.pairwise_map.mpr ha
  rw [← e] at h1
  exact List.pairwise_map.mp h1

theorem ascending_disjoint {D : IpData} (h : Ascending D.ips) : DisjointRows (rowsOf D) := by
  rw [disjoint_iff]
  exact h.imp fun {a b} h ho => by unfold Overlap at ho; omega

/-- The table read from the text, seen as a dump of the direct output `Q1`. -/
theorem text_describes {v v' : VersionInfo} {K K1 : IP → IpInfo → Prop} {D : IpData} (hdes : Describes v K D) (hasc : Ascending D.ips)
    {d : HData} (hd : EndTable D d) {out : List IpRaw}
    (hback : Rel2 (fun r z => SameNet r.cidr z.cidr ∧ WFNet z.cidr ∧ ∀ j, r.values = vals j → z.values = vals (ruled j)) d.view.ips out)
    (hsays : ∀ r ∈ d.view.ips, ∃ j, r.values = vals j ∧ ∀ ip, Walked v ip → Covers r.cidr (addrNum ip) → K1 ip j)
    (hone : ∀ ip i j, K1 ip i → K1 ip j → i = j) :
    DescribesOn v' (Walked v) K1 ⟨sevenFields, v', out⟩ := by
  refine ⟨rfl, rfl, fun he => ?_, fun z hz => ?_, ?_, fun z hz ip hw hc => ?_, fun z hz => ?_, fun ip hw => ?_, hone⟩
  · have he : out = [] := he
    obtain ⟨x, hx⟩ := List.exists_mem_of_ne_nil _ hdes.on.rows
    obtain ⟨r, hr, _⟩ := hd.inside hasc x hx
    obtain ⟨z, hz, _⟩ := rel2_mem_left hback hr
    rw [he] at hz; cases hz
  · obtain ⟨r, hr, _, h, _⟩ := rel2_mem_right hback hz
    exact h
  · exact ascending_disjoint (ascending_same hback (fun r z h => h.1) (hd.ascending hasc))
  · obtain ⟨r, hr, h1, h2, h3⟩ := rel2_mem_right hback hz
    obtain ⟨j, hj, hk⟩ := hsays r hr
    exact ⟨j, hk ip hw ((sameNet_covers h1 _).mpr hc), h3 j hj⟩
  · obtain ⟨r, hr, h1, h2, h3⟩ := rel2_mem_right hback hz
    obtain ⟨⟨ip, hw, hc⟩, _⟩ := end_rows hdes hasc hd hr
    exact ⟨ip, hw, (sameNet_covers h1 _).mp hc⟩
  · obtain ⟨x, hx, hc⟩ := hdes.on.covers ip hw
    obtain ⟨r, hr, m1, m2⟩ := hd.inside hasc x hx
    obtain ⟨z, hz, h1, _⟩ := rel2_mem_left hback hr
    exact ⟨z, hz, (sameNet_covers h1 _).mp ⟨Nat.le_trans m1 hc.1, Nat.lt_of_lt_of_le hc.2 m2⟩⟩

/-- The table of a database dumped for text: nothing is lost when the text is read. -/
theorem Describes.endsLast {v : VersionInfo} {K : IP → IpInfo → Prop} {D : IpData} (h : Describes v K D) : EndsLast D := by
  refine ⟨tiles_ascending h.tiles, ?_⟩
  rcases Export.dumpLen_cases v with h4 | h16
  · left
    intro x hx
    have hlt : netEnd x.cidr - 1 < netEnd x.cidr ∧ netLo x.cidr ≤ netEnd x.cidr - 1 := by
      have : netEnd x.cidr = netLo x.cidr + 2 ^ hostBits x.cidr := rfl
      have := Nat.two_pow_pos (hostBits x.cidr)
      omega
    have := ((tiles_covers h.tiles).2 (netEnd x.cidr - 1)).mp ⟨x.cidr, List.mem_map_of_mem hx, hlt.2, hlt.1⟩
    rw [h4] at this
    unfold famLo famEnd at this
    simp only [if_true] at this
    omega
  · right
    intro x hx hc
    obtain ⟨ip, hw, hcip⟩ := h.from_ x hx
    have hb := (WFNet_bounds (h.wf x hx).1).1
    have hnot : ¬ (0xffff * 2 ^ 32 ≤ addrNum ip ∧ addrNum ip < 0x10000 * 2 ^ 32) := by
      intro hm
      have := hw.2.mp ((To4_isSome_iff hw.1).mpr (by omega))
      omega
    have e : netEnd x.cidr = netLo x.cidr + 2 ^ hostBits x.cidr := rfl
    unfold Covers at hc hcip
    have d32 : 2 ^ 32 ∣ 0xffff * 2 ^ 32 := ⟨0xffff, by decide⟩
    have d33 : 2 ^ 33 ∣ 0xfffe * 2 ^ 32 := ⟨0x7fff, by decide⟩
    rcases Nat.lt_or_ge (hostBits x.cidr) 33 with hlt | hge
    · exfalso
      rcases laminar hb d32 (by omega : hostBits x.cidr ≤ 32) with h | h | h <;> omega
    · rcases laminar d33 hb hge with h | h | h <;> omega

/-- The text output and the direct output of the same run, and what converting them again writes. -/
theorem through_text (hfuel : fuel ≥ 2 ^ 128) (h : Convertible w fuel orders canCreate fs a Q) (hone : OneCarrier (AnswersOf w Q))
    (hcode : (Q.r.md.fields.filter fun f => decide (f = gs "continent_code")).length ≤ 1)
    (hlined : ∀ ip i, Family w (.ipdb Q) ip → Says (.ipdb Q) ip i → Lined i)
    (hver : CarriesVersion w (OpenDb.versionInfo w (.ipdb Q))) (hnow : LineOK w.nowText) :
    ∃ b1 text, converter w fuel orders canCreate fs a = some (fs.set a.output b1, .ok ()) ∧
      (∀ t, pathExt t = gs ".scan" → (0x2C : UInt8) ∉ t → canCreate t = true →
        converter w fuel orders canCreate fs { a with output := t } = some (fs.set t text, .ok ())) ∧
      (b1.length < 2 ^ 32 → ∃ b2 Q1, Opens w fuel b1 Q1 ∧
        (∀ ip i, Family w (.ipdb Q) ip → Says (.ipdb Q) ip i → ∃ o, Says (.ipdb Q1) ip o ∧ Finished (AnswersOf w Q) i o) ∧
        (∀ (orders2 : Nat → List Str) (can2 : Str → Bool) (fs2 : Fs) (a2 : Args), PlainRun a2 can2 → fs2 a2.input = some b1 →
          AnswerOrders (AnswersOf w Q) orders2 → converter w fuel orders2 can2 fs2 a2 = some (fs2.set a2.output b2, .ok ())) ∧
        (∀ (fuel2 : Nat) (orders2 : Nat → List Str) (can2 : Str → Bool) (fs2 : Fs) (a2 : Args), TextRun a2 can2 → fs2 a2.input = some text →
          AnswerOrders (AnswersOf w Q) orders2 → converter w fuel2 orders2 can2 fs2 a2 = some (fs2.set a2.output b2, .ok ())) ∧
        (b2.length < 2 ^ 32 → ∃ Q2, Opens w fuel b2 Q2 ∧
          ∀ ip o, Family w (.ipdb Q) ip → (Says (.ipdb Q2) ip o ↔ Says (.ipdb Q1) ip o))) := by
  obtain ⟨D, cap, hdes, hdD, ht, hasc, hord⟩ := h.dumped hfuel
  obtain ⟨d, hd, hall⟩ := end_data_any w fuel orders canCreate fs a cap D hdD ht h.line hord
  have e1 : addField sevenFields fDistrict = sevenFields := by decide +kernel
  have hf7 : d.fields = sevenFields := by rw [hd.fields, hdes.fields, e1]
  have hvals : ∀ x ∈ D.ips, ∀ u ∈ x.values, OneLine u ∧ (0x2C : UInt8) ∉ u := by
    intro x hx u hu
    obtain ⟨i, ⟨ip, g1, g2⟩, hi⟩ := hdes.on.val x hx
    rw [hi] at hu
    rcases ruled_sub i u hu with rfl | hu
    · exact ⟨line_nil, by simp⟩
    · exact hlined ip i g1 g2 u hu
  have htx : TextTable D := by
    refine ⟨?_, ?_, fun x hx u hu => (hvals x hx u hu).1⟩
    · rw [hdes.fields]; decide +kernel
    · rw [hdes.fields]; decide +kernel
  have hcom : CommaFree D := fun x hx u hu => (hvals x hx u hu).2
  obtain ⟨c, hdv⟩ := hd.version
  rw [hdes.version] at hdv
  obtain ⟨lv, v', hdec, hrel'⟩ := hver c
  rw [← hdv] at lv hdec
  obtain ⟨text, out, x1, x2, x3⟩ := text_dumps ht htx (.inr hdes.endsLast) hcom hd hdes.fields lv hnow hdec
  -- the direct output
  have hmeta : Ipdb.MetaRoundTrip w.encMeta w.decMeta (Ipdb.buildMeta w.now d.version d.fields) := by
    have : Ipdb.buildMeta w.now d.version d.fields = Ipdb.buildMeta w.now (OpenDb.versionInfo w (.ipdb Q)) sevenFields := by
      rw [hf7, hdv]; rfl
    rw [this]; exact h.codec
  obtain ⟨bytes, p1, p2⟩ := packed_ipdb (w := w) (fuel := fuel) hd.rowsOK hd.valuesOK hd.disjoint
    (by show 2 ≤ d.fields.length; rw [hf7]; decide) hmeta
  have hb : content w d a.output = .ok bytes := by
    obtain ⟨h', _, e⟩ := Ipdb.packH_spec (enc := w.encMeta) (now := w.now) (d0 := d) (d := d) rfl rfl rfl (Ipdb.Conv.refl _ _) hd.wf
    rw [p1] at e
    unfold content Convert.alone Convert.PackWriter
    rw [if_pos (by exact h.target)]
    simp only [e, Res.ok_bind, Res.pure_eq]
  have hdirect : converter w fuel orders canCreate fs a = some (fs.set a.output bytes, .ok ()) := by
    have := hall a.output
    rw [write_one hd.wf h.single h.creates hb] at this
    exact this
  refine ⟨bytes, text, hdirect, fun t ht1 ht2 ht3 => by rw [hall t, write_one hd.wf ht2 ht3 (x1 t ht1)], fun hl => ?_⟩
  obtain ⟨Qd, od, _, _, _, _, qd⟩ := p2 hl
  have bytes_of : ∀ {fsx : Fs} {n : Str} {x y : Bytes}, some (fsx.set n x, (Res.ok () : Res Unit)) = some (fsx.set n y, .ok ()) → x = y := by
    intro fsx n x y e
    have := congrFun (Prod.mk.inj (Option.some.inj e)).1 n
    unfold Fs.set at this
    rw [if_pos rfl, if_pos rfl] at this
    exact Option.some.inj this
  obtain ⟨b1, c1, k1⟩ := C118_again hfuel h hone
  rw [hdirect] at c1
  obtain rfl := bytes_of c1
  obtain ⟨b2, Q1, o1, ans1, second, third⟩ := k1 hl
  obtain rfl := od.one o1
  refine ⟨b2, Qd, o1, ans1, second, fun fuel2 orders2 can2 fs2 a2 hrun hfs2 hord2 => ?_, fun hl2 => ?_⟩
  · obtain ⟨b', c', k'⟩ := h.output hfuel
    rw [hdirect] at c'
    obtain rfl := bytes_of c'
    obtain ⟨Q', o', f', r', fam', ans', cr'⟩ := k' hl
    obtain rfl := o1.one o'
    obtain ⟨cf, next⟩ := h.next o' f' r' fam' ans' cr'
    have hfs : (fs.set a.input bytes) a.input = some bytes := if_pos rfl
    have h1 := next orders canCreate (fs.set a.input bytes) a h.run hfs h.orders
    obtain ⟨D1, cap1, d1, u1, t1, asc1, ord1⟩ := h1.dumped hfuel
    have hsays : ∀ r ∈ d.view.ips, ∃ j, r.values = vals j ∧ ∀ ip, Walked (OpenDb.versionInfo w (.ipdb Q)) ip → Covers r.cidr (addrNum ip) →
        Says (.ipdb Qd) ip j := by
      intro r hr
      obtain ⟨_, i, m, ⟨ip0, hf0, hs0⟩, hv⟩ := end_rows hdes hasc hd hr
      have hsp : spellContinent (cleaned i).continent = (cleaned i).continent := by
        rw [cleaned_continent]
        exact spelled_of_no_code (query_no_code h.kind h.opened hcode hs0)
      generalize cleaned i = k at hv hsp
      refine ⟨{ k with isp := m, district := districtOf k.province, line := [] }, hv, fun ip hw hc => ?_⟩
      have hsup : Supports d.view.version ip := by
        show Supports d.version ip
        rw [hdv]; exact Dump.Walked.supports hw
      refine ⟨maskFor r.cidr ip, ?_⟩
      rw [qd ip r hw.1 hsup hr hc]
      rw [show d.view.fields = d.fields from rfl, hf7, hv, info_vals]
      simp only [hsp]
    have hlen : dumpLen v' = dumpLen (OpenDb.versionInfo w (.ipdb Q)) := by
      unfold dumpLen VersionInfo.IsIpV6; rw [hrel'.1]
    have hlen1 : dumpLen (OpenDb.versionInfo w (.ipdb Qd)) = dumpLen (OpenDb.versionInfo w (.ipdb Q)) := by
      unfold dumpLen VersionInfo.IsIpV6; rw [r'.1]
    have d2 : DescribesOn v' (Walked (OpenDb.versionInfo w (.ipdb Q))) (Says (.ipdb Qd)) ⟨sevenFields, v', out⟩ :=
      text_describes hdes hasc hd x3 hsays d1.one
    -- the same statement about the addresses, for both tables
    have hwalk : ∀ ip, Walked (OpenDb.versionInfo w (.ipdb Qd)) ip ↔ Walked (OpenDb.versionInfo w (.ipdb Q)) ip := fam'
    have hset : ∀ i, AnswersOn (Walked (OpenDb.versionInfo w (.ipdb Q))) (Says (.ipdb Qd)) i ↔ AnswersOf w Qd i := by
      intro i
      constructor
      · rintro ⟨ip, g1, g2⟩; exact ⟨ip, (hwalk ip).mpr g1, g2⟩
      · rintro ⟨ip, g1, g2⟩; exact ⟨ip, (hwalk ip).mp g1, g2⟩
    have hsetE : AnswersOn (Walked (OpenDb.versionInfo w (.ipdb Q))) (Says (.ipdb Qd)) = AnswersOf w Qd := funext fun i => propext (hset i)
    have hcovers : ∀ y, (∃ x ∈ D1.ips, Covers x.cidr y) ↔ ∃ z ∈ out, Covers z.cidr y := by
      intro y
      have g1 := (tiles_covers d1.tiles).2 y
      have g2 := (tiles_covers hdes.tiles).2 y
      rw [hlen1] at g1
      have hm : ∀ D : IpData, (∃ x ∈ D.ips, Covers x.cidr y) ↔ ∃ n ∈ D.ips.map (·.cidr), Covers n y := by
        intro D
        constructor
        · rintro ⟨x, hx, hc⟩; exact ⟨_, List.mem_map_of_mem hx, hc⟩
        · rintro ⟨n, hn, hc⟩
          obtain ⟨x, hx, rfl⟩ := List.mem_map.mp hn
          exact ⟨x, hx, hc⟩
      rw [hm, g1, ← g2, ← hm]
      constructor
      · rintro ⟨x, hx, hc⟩
        obtain ⟨r, hr, m1, m2⟩ := hd.inside hasc x hx
        obtain ⟨z, hz, k1, _⟩ := rel2_mem_left x3 hr
        exact ⟨z, hz, (sameNet_covers k1 _).mp ⟨Nat.le_trans m1 hc.1, Nat.lt_of_lt_of_le hc.2 m2⟩⟩
      · rintro ⟨z, hz, hc⟩
        obtain ⟨r, hr, k1, _⟩ := rel2_mem_right x3 hz
        exact hd.only r hr y ((sameNet_covers k1 _).mpr hc)
    have t2 : Table ⟨sevenFields, v', out⟩ := by
      refine d2.table (fun i hi => ?_) ?_
      · obtain ⟨ip, g1, g2⟩ := (hset i).mp hi
        exact h1.plain ip i g1 g2
      · rcases Export.dumpLen_cases (OpenDb.versionInfo w (.ipdb Q)) with h4 | h16
        · left
          refine ⟨0, Nat.two_pow_pos _, fun z hz hc => ?_⟩
          obtain ⟨x, hx, hcx⟩ := (hcovers 0).mpr ⟨z, hz, hc⟩
          have := ((tiles_covers d1.tiles).2 0).mp ⟨x.cidr, List.mem_map_of_mem hx, hcx⟩
          rw [hlen1, h4] at this
          unfold famLo at this
          rw [if_pos rfl] at this
          omega
        · right
          obtain ⟨ip, ip', i, i', g1, g2, g3, g4, g5⟩ := h1.mixed (dumpLen16 (by rw [hlen1]; exact h16))
          exact ⟨i, i', (hset i).mpr ⟨ip, g1, g3⟩, (hset i').mpr ⟨ip', g2, g4⟩, g5⟩
    have ord2 : CarrierOrders NormalizedMap ⟨sevenFields, v', out⟩ orders2 := by
      refine d2.orders ?_
      rw [hsetE]
      exact (next orders2 canCreate (fs.set a.input bytes) a h.run hfs hord2).orders
    have hcar : ∀ s m, CarrierOf D1.fields (D1.ips.map (normRow NormalizedMap D1.fields)) s m ↔
        CarrierOf sevenFields (out.map (normRow NormalizedMap sevenFields)) s m := by
      intro s m
      rw [d1.on.carries]
      have := d2.carries s m
      rw [hsetE] at this
      exact this.symm
    have hone1 := cf.one hone
    have honeT : OneCarrierTable D1 := by
      intro y hy u s hu hn hs m m' g1 g2
      rw [d1.on.carries] at g1 g2
      obtain ⟨x, hx, rfl⟩ := List.mem_map.mp hy
      obtain ⟨i, hi, hv⟩ := d1.on.val x hx
      rw [d1.on.normed hv, d1.on.fields, val_isp] at hu
      rw [d1.on.normed hv, d1.on.fields, val_asn] at hs
      obtain rfl := Option.some.inj hu
      obtain rfl := Option.some.inj hs
      exact hone1 i hi hn m m' g1 g2
    obtain ⟨b, q1, q2⟩ := same_settled u1 (x2 fuel2 fs2 a2 can2 hrun hfs2) t1 t2 asc1 (ascending_same x3 (fun r z h => h.1) (hd.ascending hasc))
      h.line hrun.line ord1 ord2 h.single hrun.single h.target hrun.target h.creates hrun.creates
      (by rw [d1.fields, e1, d1.version]; exact h1.codec) d1.fields
      (by
        rw [d1.version]
        exact ⟨hrel'.1.trans r'.1.symm, hrel'.2.1.trans r'.2.1.symm, hrel'.2.2.trans r'.2.2.symm⟩)
      ⟨hcovers, by
        intro y x hx z hz cx cz x' z' sx sz
        obtain ⟨ip, hip, g1, g2⟩ := nets_shared (d1.on.wf x hx) (d2.wf z hz)
          (by obtain ⟨p, q, r⟩ := d1.from_ x hx; exact ⟨p, (hwalk p).mp q, r⟩) (d2.from_ z hz) cx cz
        obtain ⟨i, k1, v1⟩ := d1.row x hx ip ((hwalk ip).mpr hip) g1
        obtain ⟨j, k2, v2⟩ := d2.row z hz ip hip g2
        have hij : i = j := d1.one ip i j k1 k2
        subst hij
        exact settled_values (D2 := ⟨sevenFields, v', out⟩) d1.fields hcar honeT hx (normRow_values (v1.trans v2.symm)) sx sz⟩
    have q3 := second orders canCreate (fs.set a.input bytes) a h.run hfs h.orders
    rw [q1] at q3
    rw [q2, bytes_of q3]
  · obtain ⟨Q2, o2, same, _⟩ := third hl2
    exact ⟨Q2, o2, same⟩

/-- **C120.** An `.ipdb` file of the kind of C118 whose answers have neither line breaks nor commas, converted to a `.scan` text:
the text is written, and every conversion of it with the default rule writes the same bytes `b2` as every conversion of the
direct output `b1` does; these answer every address as `b1` does.  The runs may be on different systems of files and take
different orders of Go's maps. -/
theorem C120_through_text (hfuel : fuel ≥ 2 ^ 128) (h : Convertible w fuel orders canCreate fs a Q) (hone : OneCarrier (AnswersOf w Q))
    (hcode : (Q.r.md.fields.filter fun f => decide (f = gs "continent_code")).length ≤ 1)
    (hlined : ∀ ip i, Family w (.ipdb Q) ip → Says (.ipdb Q) ip i → Lined i)
    (hver : CarriesVersion w (OpenDb.versionInfo w (.ipdb Q))) (hnow : LineOK w.nowText)
    (ordersT : Nat → List Str) (hT : AnswerOrders (AnswersOf w Q) ordersT) :
    ∃ b1 text, converter w fuel orders canCreate fs a = some (fs.set a.output b1, .ok ()) ∧
      (∀ t, pathExt t = gs ".scan" → (0x2C : UInt8) ∉ t → canCreate t = true →
        converter w fuel ordersT canCreate fs { a with output := t } = some (fs.set t text, .ok ())) ∧
      (b1.length < 2 ^ 32 → ∃ b2 Q1, Opens w fuel b1 Q1 ∧
        (∀ ip i, Family w (.ipdb Q) ip → Says (.ipdb Q) ip i → ∃ o, Says (.ipdb Q1) ip o ∧ Finished (AnswersOf w Q) i o) ∧
        (∀ (orders2 : Nat → List Str) (can2 : Str → Bool) (fs2 : Fs) (a2 : Args), PlainRun a2 can2 → fs2 a2.input = some b1 →
          AnswerOrders (AnswersOf w Q) orders2 → converter w fuel orders2 can2 fs2 a2 = some (fs2.set a2.output b2, .ok ())) ∧
        (∀ (fuel2 : Nat) (orders2 : Nat → List Str) (can2 : Str → Bool) (fs2 : Fs) (a2 : Args), TextRun a2 can2 → fs2 a2.input = some text →
          AnswerOrders (AnswersOf w Q) orders2 → converter w fuel2 orders2 can2 fs2 a2 = some (fs2.set a2.output b2, .ok ())) ∧
        (b2.length < 2 ^ 32 → ∃ Q2, Opens w fuel b2 Q2 ∧
          ∀ ip o, Family w (.ipdb Q) ip → (Says (.ipdb Q2) ip o ↔ Says (.ipdb Q1) ip o))) := by
  have h' : Convertible w fuel ordersT canCreate fs a Q := { h with orders := hT }
  obtain ⟨b1, text, k1, k2, k3⟩ := through_text hfuel h' hone hcode hlined hver hnow
  obtain ⟨b, e1, e2⟩ := C117_same_bytes hfuel hfuel h h' ⟨rfl, rfl, rfl⟩ (fun _ _ _ => Iff.rfl) hone
  refine ⟨b1, text, ?_, k2, k3⟩
  rw [k1] at e2
  rw [e1, ← e2]

end

end Uip.Program
