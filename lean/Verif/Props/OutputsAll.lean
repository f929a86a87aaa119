import Verif.Props.OutputsText
import Verif.Props.Memip
/-!
# C89, all kinds of outputs

`.memip` outputs of a conversion, and outputs in any order when no value contains a comma.
-/
namespace Uip.Program
open Uip Uip.Spec Uip.Operate

/-! ## Which values a settled record has -/

/-- All values of a record, with the names of their fields. -/
def RowAll (P : Str → Str → Prop) (fields values : List Str) : Prop := ∀ p ∈ fields.zip values, P p.1 p.2

theorem zip_get {fs vs : List Str} {p : Str × Str} (hp : p ∈ fs.zip vs) : ∃ i : Nat, fs[i]? = some p.1 ∧ vs[i]? = some p.2 := by
  obtain ⟨i, hi, he⟩ := List.getElem_of_mem hp
  rw [List.length_zip] at hi
  rw [List.getElem_zip] at he
  refine ⟨i, ?_, ?_⟩
  · rw [List.getElem?_eq_getElem (by omega), ← he]
  · rw [List.getElem?_eq_getElem (by omega), ← he]

theorem get_zip {fs vs : List Str} {i : Nat} {f v : Str} (h1 : fs[i]? = some f) (h2 : vs[i]? = some v) : (f, v) ∈ fs.zip vs := by
  rw [List.mem_iff_getElem?]
  exact ⟨i, by rw [List.getElem?_zip_eq_some]; exact ⟨h1, h2⟩⟩

theorem RowAll.norm {P : Str → Str → Prop} (hnorm : ∀ f v, P f v → P f (normValue NormalizedMap (some f) v)) {fs : List Str}
    {x : IpRaw} (h : RowAll P fs x.values) : RowAll P fs (normRow NormalizedMap fs x).values := by
  intro p hp
  obtain ⟨i, h1, h2⟩ := zip_get hp
  unfold normRow at h2
  simp only [List.getElem?_mapIdx, Option.map_eq_some_iff] at h2
  obtain ⟨v, hv, e⟩ := h2
  rw [h1] at e
  rw [← e]
  exact hnorm _ _ (h _ (get_zip h1 hv))

theorem RowAll.set {P : Str → Str → Prop} {fs vs : List Str} (h : RowAll P fs vs) {i : Nat} {f u : Str} (hi : fs[i]? = some f)
    (hu : P f u) : RowAll P fs (vs.set i u) := by
  intro p hp
  obtain ⟨j, h1, h2⟩ := zip_get hp
  rw [List.getElem?_set] at h2
  split at h2
  · rename_i hij
    subst hij
    split at h2
    · injection h2 with h2
      rw [hi] at h1; injection h1 with h1
      rw [← h1, ← h2]; exact hu
    · cases h2
  · exact h _ (get_zip h1 h2)

theorem RowAll.settled {P : Str → Str → Prop} (hnorm : ∀ f v, P f v → P f (normValue NormalizedMap (some f) v))
    (hmain : ∀ m ∈ mainCarriers, P fISP m) {D : IpData} {x x' : IpRaw} (hs : Settled D x x') (h : RowAll P D.fields x.values) :
    RowAll P D.fields x'.values := by
  have hn := h.norm hnorm
  rcases hs with ⟨u, s, m, _, _, _, hc, rfl⟩ | ⟨rfl, _⟩
  · unfold setField
    split
    · rename_i i hi
      exact hn.set (Offset_some hi).1 (hmain _ hc.1)
    · exact hn
  · exact hn

theorem RowAll.district {P : Str → Str → Prop} (hdist : ∀ p, P fDistrict (districtOf p)) {D : IpData} (hn : D.fields.Nodup)
    {vs : List Str} (hl : vs.length = D.fields.length) (h : RowAll (fun f v => f ≠ fDistrict → P f v) D.fields vs) :
    RowAll P (addField D.fields fDistrict) (withDistrict D vs) := by
  unfold withDistrict setOrAdd addField
  cases ho : Offset fDistrict D.fields with
  | some i =>
    have hi := (Offset_some ho).1
    rw [if_pos (List.mem_of_getElem? hi)]
    intro p hp
    obtain ⟨j, h1, h2⟩ := zip_get hp
    simp only [List.getElem?_set] at h2
    split at h2
    · rename_i hij
      subst hij
      split at h2
      · injection h2 with h2
        rw [hi] at h1; injection h1 with h1
        rw [← h1, ← h2]; exact hdist _
      · cases h2
    · rename_i hij
      refine h _ (get_zip h1 h2) fun hd => hij ?_
      have hd : p.1 = fDistrict := hd
      rw [hd, ← hi] at h1
      exact ((List.getElem?_inj (List.getElem?_eq_some_iff.mp hi).1 hn).mp h1.symm)
  | none =>
    have hnm := Offset_none.mp ho
    rw [if_neg hnm]
    intro p hp
    simp only [] at hp
    rw [List.zip_append hl.symm] at hp
    rcases List.mem_append.mp hp with hp | hp
    · exact h p hp fun hd => hnm (hd ▸ (List.of_mem_zip hp).1)
    · simp only [List.zip_cons_cons, List.zip_nil_right, List.mem_singleton] at hp
      rw [hp]; exact hdist _

/-- Every table of names has only results that avoid these bytes. -/
def avoidTable (bad : List UInt8) (m : GoMap Str) : Bool := m.all fun p => p.2.all fun b => !(bad.contains b)

theorem avoidTable_spec {bad : List UInt8} {m : GoMap Str} (h : avoidTable bad m = true) {k v : Str} (hk : mapGet m k = some v) :
    Avoids bad v := by
  intro b hb hm
  have := List.all_eq_true.mp (List.all_eq_true.mp h (k, v) (mapGet_mem hk)) b hb
  simp [hm] at this

set_option maxRecDepth 100000 in
theorem plain_city : avoidTable [0x20, 0x2D, 0x0A, 0x0D, 0x2C] (parseData CityList) = true := by decide +kernel
set_option maxRecDepth 100000 in
theorem plain_province : avoidTable [0x20, 0x2D, 0x0A, 0x0D, 0x2C] (parseData ProvinceList) = true := by decide +kernel
set_option maxRecDepth 100000 in
theorem plain_isp : avoidTable [0x2C] (parseData ISPList) = true := by decide +kernel
theorem plain_district : avoidTable [0x20, 0x2D, 0x0A, 0x0D, 0x2C] provinceDistrict = true := by decide +kernel

theorem avoids_districtOf (p : Str) : Avoids [0x20, 0x2D, 0x0A, 0x0D, 0x2C] (districtOf p) := by
  rw [districtOf_table]
  split
  · intro b hb; cases hb
  · cases e : mapGet provinceDistrict p with
    | none => intro b hb; cases hb
    | some v => exact avoidTable_spec plain_district e

theorem avoids_mono {a b : List UInt8} {v : Str} (h : Avoids a v) (hs : ∀ c ∈ b, c ∈ a) : Avoids b v :=
  fun c hc hm => h c hc (hs c hm)

/-! ## Commas -/

/-- No value of the table contains a comma. -/
def CommaFree (D : IpData) : Prop := ∀ r ∈ D.ips, ∀ v ∈ r.values, (0x2C : UInt8) ∉ v

instance (D) : Decidable (CommaFree D) := by unfold CommaFree; infer_instance

theorem end_settled_length {D : IpData} (ht : Table D) {x x' : IpRaw} (hx : x ∈ D.ips) (hs : Settled D x x') :
    x'.values.length = D.fields.length := by
  have hn : (normRow NormalizedMap D.fields x).values.length = D.fields.length := by
    unfold normRow
    simp only [List.length_mapIdx]
    exact ht.len x hx
  rcases hs with ⟨u, s, m, _, _, _, _, rfl⟩ | ⟨rfl, _⟩
  · unfold setField
    split
    · simp only [List.length_set]; exact hn
    · exact hn
  · exact hn

theorem mem_zip_of {fs vs : List Str} (hl : vs.length = fs.length) {v : Str} (hv : v ∈ vs) : ∃ f, (f, v) ∈ fs.zip vs := by
  obtain ⟨i, hi, rfl⟩ := List.getElem_of_mem hv
  exact ⟨fs[i]'(by omega), get_zip (List.getElem?_eq_getElem (by omega)) (List.getElem?_eq_getElem hi)⟩

theorem withDistrict_length {D : IpData} {vs : List Str} (hl : vs.length = D.fields.length) :
    (withDistrict D vs).length = (addField D.fields fDistrict).length := by
  unfold withDistrict setOrAdd addField
  cases ho : Offset fDistrict D.fields with
  | some i => rw [if_pos (List.mem_of_getElem? (Offset_some ho).1)]; simp [hl]
  | none => rw [if_neg (Offset_none.mp ho)]; simp [hl]

theorem end_noCommas {D : IpData} (ht : Table D) (hc : CommaFree D) {d : HData} (hd : EndTable D d) : Convert.NoCommas d := by
  intro r hr v hv hm
  obtain ⟨x, hx, x', hs, hrv⟩ := hd.origin hr
  rw [hrv] at hv
  have hl := end_settled_length ht hx hs
  have h0 : RowAll (fun _ v => (0x2C : UInt8) ∉ v) D.fields x.values := fun p hp => hc x hx _ (List.of_mem_zip hp).2
  have h1 := RowAll.settled (P := fun _ v => (0x2C : UInt8) ∉ v) (fun f v hv => ?_) (by decide +kernel) hs h0
  · have h2 := RowAll.district (P := fun _ v => (0x2C : UInt8) ∉ v) (fun p hm => avoids_districtOf p _ hm (by simp)) ht.nodup hl
      (fun p hp _ => h1 p hp)
    obtain ⟨f, hf⟩ := mem_zip_of (withDistrict_length hl) hv
    exact h2 _ hf hm
  · unfold normValue
    split
    · exact hv
    · rename_i t ht'
      split
      · rename_i u hu
        rcases NormalizedMap_cases (f := f) ht' with h | h | h
        · rw [h.2] at hu; exact fun hm => avoidTable_spec plain_isp hu _ hm (by simp)
        · rw [h.2] at hu; exact fun hm => avoidTable_spec plain_province hu _ hm (by simp)
        · rw [h.2] at hu; exact fun hm => avoidTable_spec plain_city hu _ hm (by simp)
      · exact hv

/-! ## memip -/

/-- A table that can be written as a `.memip` text: the shown fields other than the district (which is replaced) and the
carrier (which is only shown when it is one of the main ones) have no space, dash or line break. -/
def MemTable (D : IpData) : Prop := ∀ r ∈ D.ips, ∀ p ∈ D.fields.zip r.values,
  p.1 ∈ [gs "city", gs "province", gs "country", gs "continent"] → Avoids [0x20, 0x2D, 0x0A, 0x0D] p.2

instance (D) : Decidable (MemTable D) := by unfold MemTable; infer_instance

theorem end_fine {D : IpData} (ht : Table D) {d : HData} (hd : EndTable D d) {r : IpRaw} (hr : r ∈ d.view.ips) :
    ∀ v ∈ r.values, Fine v := by
  obtain ⟨x, hx, x', hs, hv⟩ := hd.origin hr
  rw [hv]
  have h0 : FineRow x' := fine_settled hs fun v hv => ⟨ht.modest.short x hx v hv, ht.modest.noTab x hx v hv⟩
  exact fine_setOrAdd (x := ⟨⟨[], []⟩, x'.values⟩) h0 (fine_districtOf _)

theorem shown_le {fs vs : List Str} (h : ∀ v ∈ vs, v.length ≤ 255) (f : Str) : (shown fs vs f).length ≤ 255 := by
  have hu : unknown.length ≤ 255 := by decide +kernel
  unfold shown
  split
  · exact hu
  · rename_i v hv
    split
    · exact hu
    · unfold valueOf at hv
      rw [Option.map_eq_some_iff] at hv
      obtain ⟨p, hp, rfl⟩ := hv
      exact h _ (List.of_mem_zip (List.mem_of_find?_eq_some hp)).2

theorem view_le {fs vs : List Str} (h : ∀ v ∈ vs, v.length ≤ 255) : ∀ v ∈ viewOf fs vs, v.length ≤ 255 := by
  have hu : unknown.length ≤ 255 := by decide +kernel
  have hoth : (gs "其他").length ≤ 255 := by decide +kernel
  have hct : ∀ p ∈ continentTable, p.2.length ≤ 255 := by decide +kernel
  intro v hv
  unfold viewOf at hv
  simp only [List.mem_cons, List.not_mem_nil, or_false] at hv
  rcases hv with rfl | rfl | rfl | rfl | rfl | rfl
  · exact shown_le h _
  · exact shown_le h _
  · split
    · exact hu
    · exact shown_le h _
  · split
    · exact shown_le h _
    · exact hoth
  · exact shown_le h _
  · unfold spellContinent
    cases hf : continentTable.find? (fun p => decide (p.1 = shown fs vs (gs "continent"))) with
    | none => exact shown_le h _
    | some p => exact hct p (List.mem_of_find?_eq_some hf)

theorem end_memOK {D : IpData} (ht : Table D) (hm : MemTable D) {d : HData} (hd : EndTable D d) : MemOK d.view := by
  refine ⟨?_, hd.rowsOK.2, fun r hr => hd.rowsOK.4 r hr, fun r hr => ?_, fun r hr => ?_⟩
  · obtain ⟨x, hx⟩ := List.exists_mem_of_ne_nil _ ht.rows
    obtain ⟨x', r, _, hr, _⟩ := hd.covered x hx _ covers_first
    exact List.ne_nil_of_mem hr
  · obtain ⟨x, hx, x', hs, hv⟩ := hd.origin hr
    have hl := end_settled_length ht hx hs
    apply Memip.viewOf_avoids
    show RowAll (fun f v => f ∈ [gs "city", gs "province", gs "district", gs "country", gs "continent"] →
      Avoids [0x20, 0x2D, 0x0A, 0x0D] v) d.fields r.values
    rw [hd.fields, hv]
    have h0 : RowAll (fun f v => f ∈ [gs "city", gs "province", gs "country", gs "continent"] →
      Avoids [0x20, 0x2D, 0x0A, 0x0D] v) D.fields x.values := hm x hx
    have h1 := RowAll.settled (P := fun f v => f ∈ [gs "city", gs "province", gs "country", gs "continent"] →
      Avoids [0x20, 0x2D, 0x0A, 0x0D] v) (fun f v hv hf => ?_) (by decide +kernel) hs h0
    · refine RowAll.district (P := fun f v => f ∈ [gs "city", gs "province", gs "district", gs "country", gs "continent"] →
        Avoids [0x20, 0x2D, 0x0A, 0x0D] v) (fun p _ => avoids_mono (avoids_districtOf p) (by decide)) ht.nodup hl ?_
      intro p hp hpd hpf
      refine h1 p hp ?_
      simp only [List.mem_cons, List.not_mem_nil, or_false] at hpf ⊢
      rcases hpf with h | h | h | h | h
      · exact .inl h
      · exact .inr (.inl h)
      · exact absurd h hpd
      · exact .inr (.inr (.inl h))
      · exact .inr (.inr (.inr h))
    · unfold normValue
      split
      · exact hv hf
      · rename_i t ht'
        split
        · rename_i u hu
          rcases NormalizedMap_cases (f := f) ht' with h | h | h
          · rw [h.1] at hf; exact absurd hf (by decide +kernel)
          · rw [h.2] at hu; exact avoids_mono (avoidTable_spec plain_province hu) (by decide)
          · rw [h.2] at hu; exact avoids_mono (avoidTable_spec plain_city hu) (by decide)
        · exact hv hf
  · have := joinByte_length_le (c := 0x2D) (k := 255) (viewOf d.view.fields r.values)
      (view_le fun v hv => (end_fine ht hd hr v hv).1)
    rw [Memip.viewOf_length] at this
    omega

/-- One family, as a `.memip` text can hold it: IPv4 rows declared as IPv4, or rows without IPv4 addresses (and without the
very last address, after which a dump of the text stops) declared otherwise. -/
def MemFamily (D : IpData) : Prop :=
  (D.version.ipType = IpV4 ∧ ∀ r ∈ D.ips, V4Net r.cidr) ∨
  (D.version.ipType ≠ IpV4 ∧ ∀ r ∈ D.ips, (netEnd r.cidr ≤ v4Lo ∨ v4End ≤ netLo r.cidr) ∧ netEnd r.cidr ≠ 2 ^ 128)

instance (D) : Decidable (MemFamily D) := by unfold MemFamily; infer_instance

theorem lo_lt_end (n : IPNet) : netLo n < netEnd n := by
  have := (covers_first (n := n)).2
  exact this

theorem covers_last (n : IPNet) : Covers n (netEnd n - 1) := by
  have := lo_lt_end n
  exact ⟨by omega, by omega⟩

theorem end_mem_pack {D : IpData} (ht : Table D) (hm : MemTable D) (hfam : MemFamily D) {d : HData} (hd : EndTable D d)
    (build : Int) (day : Str) :
    ∃ text out, Memip.pack d.view = .ok text ∧ Memip.dump build day text = .ok out ∧ out.fields = viewFields ∧
      (∀ o ∈ out.ips, WFNet o.cidr) ∧ (∀ x, firstMatch out.ips x = firstRun (runsOf d.view) x) := by
  obtain ⟨c, hver⟩ := hd.version
  have hver' : d.view.version = { D.version with count := c } := hver
  have hok := end_memOK ht hm hd
  have hex : ∀ r ∈ d.view.ips, (∃ x ∈ D.ips, Covers x.cidr (netLo r.cidr)) ∧ (∃ x ∈ D.ips, Covers x.cidr (netEnd r.cidr - 1)) :=
    fun r hr => ⟨hd.only r hr _ covers_first, hd.only r hr _ (covers_last _)⟩
  rcases hfam with ⟨hv, h4⟩ | ⟨hv, h6⟩
  · obtain ⟨text, out, e1, e2, e3, _, _, e4, _, e5, _⟩ := Memip.C47_v4 d.view hok build day (by rw [hver']; exact hv) (fun r hr => by
      obtain ⟨⟨x, hx, hcx⟩, z, hz, hcz⟩ := hex r hr
      have h1 := (h4 x hx).1
      have h2 := (h4 z hz).2
      have := lo_lt_end r.cidr
      unfold Covers at hcx hcz
      exact ⟨by omega, by omega⟩)
    exact ⟨text, out, e1, e2, e3, e4, e5⟩
  · obtain ⟨text, out, e1, e2, e3, _, _, e4, _, e5, _⟩ := Memip.C47_v6 d.view hok build day (by rw [hver']; exact hv) (fun r hr => by
      obtain ⟨⟨x, hx, hcx⟩, z, hz, hcz⟩ := hex r hr
      have h1 := (h6 x hx).1
      have h2 := (h6 z hz).1
      have := lo_lt_end r.cidr
      unfold Covers at hcx hcz
      exact ⟨by omega, by omega⟩) (fun r hr => by
      have hr := List.dropLast_subset _ hr
      obtain ⟨_, z, hz, hcz⟩ := hex r hr
      have h2 := (h6 z hz).2
      have hle := (WFNet_bounds (ht.wf z hz)).2
      unfold Covers at hcz
      omega)
    exact ⟨text, out, e1, e2, e3, e4, e5⟩

/-- **C89 (memip).** A `.memip` output of a conversion, dumped again (the rule plays no part), shows for every row of the
table its settled record with its district, in the six fields of the text; the city may be that of a neighbouring network
with the same other five fields, and is the own one when such networks never differ in the city.  Other addresses have
no row. -/
theorem C89_memip (w : World) (fuel : Nat) (D : IpData) (ht : Table D) (hm : MemTable D) (hfam : MemFamily D)
    (d : HData) (hd : EndTable D d) (o : Str) (he : pathExt o = gs ".memip") (rule : Str) :
    ∃ b, content w d o = .ok b ∧ ∀ fs : Fs, fs o = some b →
      ∃ h, DumpFile (converterFormats w fuel) fs o rule [] = some (.ok h) ∧ h.view.fields = viewFields ∧
        (∀ r ∈ h.view.ips, WFNet r.cidr) ∧
        (∀ x ∈ D.ips, ∀ y, Covers x.cidr y → ∃ x', Settled D x x' ∧
          (firstMatch h.view.ips y).map List.tail = some (viewOf (addField D.fields fDistrict) (withDistrict D x'.values)).tail ∧
          ((∀ a ∈ D.ips, ∀ b ∈ D.ips, ∀ a' b', Settled D a a' → Settled D b b' →
              (viewOf (addField D.fields fDistrict) (withDistrict D a'.values)).tail =
                (viewOf (addField D.fields fDistrict) (withDistrict D b'.values)).tail →
              viewOf (addField D.fields fDistrict) (withDistrict D a'.values) =
                viewOf (addField D.fields fDistrict) (withDistrict D b'.values)) →
            firstMatch h.view.ips y = some (viewOf (addField D.fields fDistrict) (withDistrict D x'.values)))) ∧
        (∀ y, (∀ x ∈ D.ips, ¬ Covers x.cidr y) → firstMatch h.view.ips y = none) := by
  obtain ⟨text, out, e1, e2, e3, e4, e5⟩ := end_mem_pack ht hm hfam hd w.now w.day
  have hcont : content w d o = .ok text := by
    unfold content Convert.alone Convert.PackWriter
    rw [if_neg (by show ¬ pathExt o = gs ".ipdb"; rw [he]; decide +kernel),
      if_neg (by show ¬ pathExt o = gs ".scan"; rw [he]; decide +kernel), if_pos (by exact he)]
    simp only [e1, Res.ok_bind, Res.pure_eq]
  refine ⟨text, hcont, fun fs hf => ?_⟩
  obtain ⟨hw0, hv0⟩ := dumped_spec id out
  refine ⟨dumped id out, ?_, by rw [hv0]; exact e3, by rw [hv0]; exact e4, fun x hx y hy => ?_, fun y hy => ?_⟩
  · unfold DumpFile
    rw [hf]
    simp only []
    rw [he, show (converterFormats w fuel).GetDumpFormat (gs ".memip") =
      some (fun b _ => withSlices id (some (Memip.dump w.now w.day b))) from rfl]
    simp only [e2, withSlices, Option.map_some, Res.ok_bind, runOps]
  · obtain ⟨x', r, hs, hr, hc, _, hv⟩ := hd.covered x hx y hy
    have hfm : firstMatch d.view.ips y = some (withDistrict D x'.values) := by
      rw [firstMatch_of_disjoint (disjoint_iff.mp hd.disjoint) hr hc, hv]; rfl
    have hfd : d.view.fields = addField D.fields fDistrict := hd.fields
    obtain ⟨k1, _, k3⟩ := Memip.C47_runs_keep_views d.view y
    refine ⟨x', hs, ?_, fun hcity => ?_⟩
    · rw [hv0, e5, k1, hfm, hfd]; rfl
    · rw [hv0, e5, k3 ?_, hfm, hfd]
      · rfl
      · intro a ha b hb hab
        obtain ⟨xa, hxa, a', hsa, hva⟩ := hd.origin ha
        obtain ⟨xb, hxb, b', hsb, hvb⟩ := hd.origin hb
        rw [hfd, hva, hvb] at hab ⊢
        exact hcity xa hxa xb hxb a' b' hsa hsb hab
  · obtain ⟨k1, _, _⟩ := Memip.C47_runs_keep_views d.view y
    have hfm : firstMatch d.view.ips y = none := by
      unfold firstMatch
      rw [Option.map_eq_none_iff, List.find?_eq_none]
      intro r hr hc
      simp only [decide_eq_true_eq] at hc
      obtain ⟨x, hx, hcx⟩ := hd.only r hr y hc
      exact hy x hx hcx
    rw [hfm] at k1
    rw [hv0, e5]
    cases h : firstRun (runsOf d.view) y with
    | none => rfl
    | some v => rw [h] at k1; cases k1

/-! ## The whole conversion -/

/-- **C89.** A conversion to any number of `.ipdb`, `.scan` and `.memip` outputs of a table whose continent field (if any)
is spelled `continent` — with the `.scan` outputs last, or in any order if no value has a comma: all are written from one
data set `d`, each with the content it has on its own, nothing else changes, and every `.ipdb` output answers as in `C64`.
(What the other outputs hold: `C89_text`, `C89_memip`.) -/
theorem C89_all_kinds (w : World) (fuel : Nat) (orders : Nat → List Str) (canCreate : Str → Bool) (fs : Fs) (a : Args)
    (cap : Nat → Nat) (D : IpData) (hin : Dumps w fuel fs a cap D) (ht : Table D) (hline : a.line = [])
    (hord : CarrierOrders NormalizedMap D orders)
    (hcont : ∀ f ∈ D.fields, f ≠ gs "continent" → Ipdb.asciiLower f ≠ gs "continent")
    (hos : ∀ o ∈ splitByte 0x2C a.output, canCreate o = true ∧
      (pathExt o = gs ".ipdb" ∨ pathExt o = gs ".scan" ∨ pathExt o = gs ".memip" ∧ MemTable D ∧ MemFamily D))
    (hlast : TextLast (splitByte 0x2C a.output) ∨ CommaFree D)
    (hmeta : Ipdb.MetaRoundTrip w.encMeta w.decMeta (Ipdb.buildMeta w.now D.version (addField D.fields fDistrict))) :
    ∃ fs' d, EndTable D d ∧ converter w fuel orders canCreate fs a = some (fs', .ok ()) ∧
      (∀ n, n ∉ splitByte 0x2C a.output → fs' n = fs n) ∧
      (∀ o ∈ splitByte 0x2C a.output, ∃ b, fs' o = some b ∧ content w d o = .ok b ∧
        (pathExt o = gs ".ipdb" → b.length < 2 ^ 32 → ∃ q, NewDb w (serverFormats w fuel) fs' o = .ok q ∧
          (∀ ip x, ValidIP ip → Supports D.version ip → x ∈ D.ips → Covers x.cidr (addrNum ip) →
            ∃ x' n, Settled D x x' ∧ Covers n (addrNum ip) ∧ OneRecord D n x'.values ∧
              q.query ip = .ok (converted D x'.values, maskFor n ip)) ∧
          (∀ ip, (¬ ValidIP ip ∨ ¬ Supports D.version ip ∨ ∀ x ∈ D.ips, ¬ Covers x.cidr (addrNum ip)) →
            q.query ip = .err .databaseError))) := by
  obtain ⟨d, hd, e⟩ := end_data w fuel orders canCreate fs a cap D hin ht hline hord
  have hone : Convert.OneContinent d := by
    intro f hf hne
    rw [hd.fields] at hf
    unfold addField at hf
    split at hf
    · exact hcont f hf hne
    · rcases List.mem_append.mp hf with hf | hf
      · exact hcont f hf hne
      · rw [List.mem_singleton.mp hf]; decide +kernel
  have hcan : ∀ o ∈ splitByte 0x2C a.output, ∃ b, content w d o = .ok b := by
    intro o ho
    rcases (hos o ho).2 with h | h | ⟨h, hm, hfam⟩
    · obtain ⟨b, hb, _⟩ := end_ipdb (fuel := fuel) ht hd hmeta h
      exact ⟨b, hb⟩
    · obtain ⟨d', hp, _⟩ := Plain.pack_text (enc := w.encVersion) (now := w.nowText) hd.wf
      unfold content Convert.alone Convert.PackWriter
      rw [if_neg (by show ¬ pathExt o = gs ".ipdb"; rw [h]; decide +kernel), if_pos (by exact h)]
      simp only [hp, Res.ok_bind, Res.pure_eq]
      exact ⟨_, rfl⟩
    · obtain ⟨b, hb, _⟩ := C89_memip w fuel D ht hm hfam d hd o h []
      exact ⟨b, hb⟩
  have hpw : (splitByte 0x2C a.output).Pairwise (HarmlessFiles d) := by
    rcases hlast with hl | hc
    · exact hl.imp fun {x y} h => ⟨fun hx => .inl (h hx), fun _ => .inr hone⟩
    · exact List.pairwise_of_forall fun x y => ⟨fun _ => .inr (end_noCommas ht hc hd), fun _ => .inr hone⟩
  obtain ⟨fs', k1, k2, k3⟩ := C89_written w fuel canCreate fs d hd.wf (splitByte 0x2C a.output) hpw
    (fun o ho => ⟨(hos o ho).1, hcan o ho⟩)
  refine ⟨fs', d, hd, by rw [e, k1], k3, fun o ho => ?_⟩
  obtain ⟨b, hb⟩ := hcan o ho
  have hfo : fs' o = some b := by rw [k2 o ho]; unfold written; rw [hb]
  refine ⟨b, hfo, hb, fun he hl => ?_⟩
  obtain ⟨b', hb', k⟩ := end_ipdb (fuel := fuel) ht hd hmeta he
  rw [hb] at hb'
  injection hb' with hb'; subst hb'
  exact k hl fs' hfo

end Uip.Program
