import Verif.Props.Again
import Verif.Props.AnyJson
import Verif.Props.GoWorld
import Verif.Props.ReadersTextExact
import Verif.Proof.Ipdb.AnyAnswer
import Verif.Proof.Ipdb.Exact
/-!
# Property C119: converted databases in the Java and the Rust reader

What the converter writes is not only read by Go: the Java and the Rust reader of this repository serve the same files.
-/
namespace Uip.Program
open Uip Uip.Spec Uip.Operate Uip.Export

/-! ## The answers of the three readers for one record -/

theorem java_for_record (fields values : List Str) :
    javaTexts (javaInfo fields values) = { infoOf fields values with line := attr (asnNames ++ lineNames) fields values } := by
  have hcont : ((attr? continentNames fields values).map spellContinent).getD [] =
      spellContinent (attr continentNames fields values) := by
    rw [attr_eq_attr?]
    cases attr? continentNames fields values with
    | none => show [] = spellContinent []; decide
    | some v => rfl
  unfold javaTexts javaInfo infoOf
  simp only [hcont, attr_eq_attr?]

/-! ## Texts stay texts -/

/-- All results of a name table are texts. -/
def textTable (m : GoMap Str) : Bool := m.all fun p => decide (Json.repair p.2 = p.2)

theorem textTable_spec {m : GoMap Str} (h : textTable m = true) {k v : Str} (hk : mapGet m k = some v) : Json.IsText v := by
  have := List.all_eq_true.mp h (k, v) (mapGet_mem hk)
  exact (Json.repair_eq_iff _).mp (by simpa using this)

set_option maxRecDepth 100000 in
theorem text_city : textTable (parseData CityList) = true := by decide +kernel
set_option maxRecDepth 100000 in
theorem text_isp : textTable (parseData ISPList) = true := by decide +kernel
set_option maxRecDepth 100000 in
theorem text_province : textTable (parseData ProvinceList) = true := by decide +kernel
theorem text_district : textTable provinceDistrict = true := by decide +kernel

theorem text_norm {f : Option Str} {v : Str} (h : Json.IsText v) : Json.IsText (normValue NormalizedMap f v) := by
  unfold normValue
  split
  · exact h
  · rename_i t ht
    have : textTable t = true := by
      cases f with
      | none => cases ht
      | some f =>
        rcases NormalizedMap_cases (f := f) ht with h | h | h
        · rw [h.2]; exact text_isp
        · rw [h.2]; exact text_province
        · rw [h.2]; exact text_city
    split
    · rename_i hv; exact textTable_spec this hv
    · exact h

theorem text_carrier {m : Str} (h : m ∈ mainCarriers) : Json.IsText m := by
  have : ∀ m ∈ mainCarriers, Json.repair m = m := by decide +kernel
  exact (Json.repair_eq_iff _).mp (this m h)

theorem text_districtOf (p : Str) : Json.IsText (districtOf p) := by
  rw [districtOf_table]
  split
  · exact Json.isText_nil
  · cases e : mapGet provinceDistrict p with
    | none => exact Json.isText_nil
    | some v => exact textTable_spec text_district e

/-- All values of a row are texts. -/
def TextRow (x : IpRaw) : Prop := ∀ v ∈ x.values, Json.IsText v

theorem text_set {l : List Str} {i : Nat} {v : Str} (h : ∀ u ∈ l, Json.IsText u) (hv : Json.IsText v) : ∀ u ∈ l.set i v, Json.IsText u := by
  intro u hu
  rcases List.mem_or_eq_of_mem_set hu with hu | rfl
  · exact h u hu
  · exact hv

theorem text_setField {fs : List Str} {f v : Str} {x : IpRaw} (h : TextRow x) (hv : Json.IsText v) : TextRow (setField fs f v x) := by
  unfold setField
  split
  · exact text_set h hv
  · exact h

theorem text_setOrAdd {fs : List Str} {f v : Str} {x : IpRaw} (h : TextRow x) (hv : Json.IsText v) : TextRow (setOrAdd fs f v x) := by
  unfold setOrAdd
  split
  · exact text_set h hv
  · intro u hu
    rcases List.mem_append.mp hu with hu | hu
    · exact h u hu
    · rw [List.mem_singleton.mp hu]; exact hv

theorem text_settled {D : IpData} {x x' : IpRaw} (hs : Settled D x x') (h : TextRow x) : TextRow x' := by
  have hn : TextRow (normRow NormalizedMap D.fields x) := by
    intro v hv
    obtain ⟨i, hi, rfl⟩ := List.getElem_of_mem hv
    unfold normRow at hi ⊢
    simp only [List.length_mapIdx, List.getElem_mapIdx] at hi ⊢
    exact text_norm (h _ (List.getElem_mem _))
  rcases hs with ⟨u, s, m, _, _, _, hc, rfl⟩ | ⟨rfl, _⟩
  · exact text_setField hn (text_carrier hc.1)
  · exact hn

theorem rowOf_of_disjoint {T : IpData} (hd : DisjointRows (rowsOf T)) {row : IpRaw} (hr : row ∈ T.ips) {y : Nat} (hc : Covers row.cidr y) :
    ∃ m, rowOf (rowsOf T) y = some m ∧ m.2 = row.values := by
  have h1 := firstMatch_of_disjoint (disjoint_iff.mp hd) hr hc
  unfold firstMatch at h1
  obtain ⟨z, hz, hv⟩ := Option.map_eq_some_iff.mp h1
  refine ⟨(z.cidr, z.values), ?_, hv⟩
  unfold rowOf rowsOf
  rw [List.find?_map]
  exact Option.map_eq_some_iff.mpr ⟨z, hz, rfl⟩

theorem merged_disjoint {g : IpRaw → Str} {fields : List Str} {f : Str} {T T' : IpData} (h : DisjointRows (rowsOf T))
    (e : T.ips = T'.ips.map fun x => setOrAdd fields f (g x) x) : DisjointRows (rowsOf T') := by
  rw [disjoint_iff] at h ⊢
  rw [e, List.pairwise_map] at h
  simpa only [setOrAdd_cidr] using h

/-! ## Tables -/

/-- The values of a settled record `v` with its district, as they are packed. -/
def packedValues (D : IpData) (v : List Str) : List Str :=
  (setOrAdd D.fields fDistrict (districtOf ((fieldVal D.fields fProvince ⟨⟨[], []⟩, v⟩).getD [])) ⟨⟨[], []⟩, v⟩).values

/-- **C119, for tables.** An input of any kind read into a table of texts, converted to `.ipdb`: below 2 GiB the output opens in
the Go, the Java and the Rust reader, and where the table has a row the Java answer is the Go answer, except that the line is
the last of the AS number and line columns, and the Rust answer is the Go answer, except that a continent not stored as a
code is missing.  Addresses of a length the Java and the Rust reader do not take are refused. -/
theorem C119_table (w : World) (fuel : Nat) (orders : Nat → List Str) (canCreate : Str → Bool) (fs : Fs) (a : Args)
    (cap : Nat → Nat) (D : IpData) (hin : Dumps w fuel fs a cap D) (ht : Table D) (htext : TextValues D) (hline : a.line = [])
    (hord : CarrierOrders NormalizedMap D orders)
    (ho : (0x2C : UInt8) ∉ a.output) (he : pathExt a.output = gs ".ipdb") (hcc : canCreate a.output = true)
    (hmeta : Ipdb.MetaRoundTrip w.encMeta w.decMeta (Ipdb.buildMeta w.now D.version (addField D.fields fDistrict)))
    {decJ decR : Bytes → Option Ipdb.MetaData} {utf8J utf8R : Bytes → Str}
    (hj : Ipdb.MetaRoundTripInt w.encMeta decJ (Ipdb.buildMeta w.now D.version (addField D.fields fDistrict)))
    (hr : Ipdb.MetaRoundTripInt w.encMeta decR (Ipdb.buildMeta w.now D.version (addField D.fields fDistrict)))
    (huJ : Ipdb.KeepsTexts utf8J) (huR : Ipdb.KeepsTexts utf8R) (ips : List Bytes) :
    ∃ b, converter w fuel orders canCreate fs a = some (fs.set a.output b, .ok ()) ∧
      (b.length < 2 ^ 31 → ∃ Q j r, Opens w fuel b Q ∧ Java.create decJ utf8J ips b = .ok j ∧ Rust.Reader decR b = .ok r ∧
        (∀ ip x, Supports D.version ip → TakesLen D.version ip → x ∈ D.ips → Covers x.cidr (addrNum ip) →
          ∃ x' n ja, Settled D x x' ∧ (OpenDb.ipdb Q).query ip = .ok (converted D x'.values, n) ∧
            Java.query utf8J j ip = .ok ja ∧
            javaTexts ja = { converted D x'.values with
              line := attr (asnNames ++ lineNames) (addField D.fields fDistrict) (packedValues D x'.values) } ∧
            Rust.query utf8R r ip = .ok { converted D x'.values with
              continent := spellCode (attr continentNames (addField D.fields fDistrict) (packedValues D x'.values)) }) ∧
        ∀ ip, ¬ TakesLen D.version ip → ∃ e, Java.query utf8J j ip = .err e ∧ Rust.query utf8R r ip = .err e) := by
  obtain ⟨b, d2, d3, d4, c1, hset, hw2, ha2, hm, hw4, hr4, hv4, hd4, hf4, hver4, hi4, hp4, hvals, hfm⟩ :=
    convert_bytes hin ht hline hord ho he hcc hmeta
  have hmd : Ipdb.buildMeta w.now d4.view.version d4.view.fields = Ipdb.buildMeta w.now D.version (addField D.fields fDistrict) := by
    show Ipdb.buildMeta w.now d4.version d4.fields = _
    rw [hver4, hf4]; rfl
  have htx : TextValues d4.view := by
    intro row hrow
    rw [hi4] at hrow
    obtain ⟨r3, hr3, rfl⟩ := List.mem_map.mp hrow
    obtain ⟨r2, hr2, hv⟩ := hvals r3 hr3
    obtain ⟨z, hz, hs⟩ := rel2_mem_right hset hr2
    have h2 : TextRow r2 := text_settled hs (htext z hz)
    have h3 : TextRow r3 := fun v hv' => h2 v (by rw [← hv]; exact hv')
    exact text_setOrAdd h3 (text_districtOf _)
  have hkept : keptRows (rowsOf d4.view) = rowsOf d4.view := Ipdb.keptRows_of_disjoint
    (by intro m hm; obtain ⟨z, hz, rfl⟩ := List.mem_map.mp hm; exact hr4.wf z hz) hd4
  refine ⟨b, c1, fun hl => ?_⟩
  obtain ⟨b', p1, p2⟩ := packed_ipdb (w := w) (fuel := fuel) hr4 hv4 hd4
    (by show 2 ≤ d4.fields.length; rw [hf4]; exact Nat.le_trans (two_fields ht) addField_le) (by rw [hmd]; exact hmeta)
  rw [hp4] at p1
  obtain rfl := Res.ok.inj p1
  obtain ⟨Q, o1, _, _, _, _, o6⟩ := p2 (by omega)
  obtain ⟨j, j1, j2⟩ := Ipdb.C68_java_answer hr4 hv4 htx (by rw [hmd]; exact hj) huJ hp4 hl ips
  obtain ⟨j', j1', j3⟩ := Ipdb.C68_java_rejects (utf8 := utf8J) hr4 (by rw [hmd]; exact hj) hp4 hl ips
  rw [j1] at j1'
  obtain rfl := Res.ok.inj j1'
  obtain ⟨r, r1, r2⟩ := Ipdb.C69_rust_answer hr4 hv4 htx (by rw [hmd]; exact hr) huR hp4 hl
  obtain ⟨r', r1', r3⟩ := Ipdb.C69_rust_rejects (utf8 := utf8R) hr4 (by rw [hmd]; exact hr) hp4 hl
  rw [r1] at r1'
  obtain rfl := Res.ok.inj r1'
  have htk : ∀ ip, TakesLen d4.view.version ip ↔ TakesLen D.version ip := by
    intro ip; show TakesLen d4.version ip ↔ _; unfold TakesLen; rw [hver4]
  have hsup : ∀ ip, Supports d4.view.version ip ↔ Supports D.version ip := by
    intro ip; show Supports d4.version ip ↔ _; unfold Supports; rw [hver4]
  obtain ⟨hcov, _⟩ := merged_covers ht hset (disjoint_iff.mp (merged_disjoint hd4 hi4)) hfm
  refine ⟨Q, j, r, o1, j1, r1, fun ip x hs htl hx hc => ?_, fun ip hn => ?_⟩
  · obtain ⟨x', r', hs', hr', hc', hv'⟩ := hcov x hx _ hc
    have hmem : setOrAdd D.fields fDistrict (districtOf ((fieldVal D.fields fProvince r').getD [])) r' ∈ d4.view.ips := by
      rw [hi4]; exact List.mem_map.mpr ⟨r', hr', rfl⟩
    have hc4 : Covers (setOrAdd D.fields fDistrict (districtOf ((fieldVal D.fields fProvince r').getD [])) r').cidr (addrNum ip) := by
      rw [setOrAdd_cidr]; exact hc'
    have hval : (setOrAdd D.fields fDistrict (districtOf ((fieldVal D.fields fProvince r').getD [])) r').values =
        packedValues D x'.values := by
      unfold packedValues
      rw [fieldVal_values (x := r') (y := ⟨⟨[], []⟩, x'.values⟩) hv',
        setOrAdd_values _ _ _ (x := r') (y := ⟨⟨[], []⟩, x'.values⟩) hv']
    have hvip : ValidIP ip := by
      rcases htl with ⟨h, _⟩ | ⟨h, _⟩
      · exact .inl h
      · exact .inr h
    have hgo := o6 ip _ hvip ((hsup ip).mpr hs) hmem hc4
    obtain ⟨m, hm1, hm2⟩ := rowOf_of_disjoint hd4 hmem hc4
    rw [← hkept] at hm1
    have hja := j2 ip m ((htk ip).mpr htl) hm1
    have hru := r2 ip m ((htk ip).mpr htl) hm1
    rw [hm2, hval] at hja hru
    rw [hval] at hgo
    have hf4' : d4.view.fields = addField D.fields fDistrict := hf4
    rw [hf4'] at hgo hja hru
    have hconv : infoOf (addField D.fields fDistrict) (packedValues D x'.values) = converted D x'.values := rfl
    refine ⟨x', _, _, hs', hgo, hja, ?_, hru⟩
    rw [java_for_record, hconv]
  · exact ⟨_, j3 ip (fun h => hn ((htk ip).mp h)), r3 ip (fun h => hn ((htk ip).mp h))⟩

/-! ## `.ipdb` files -/

theorem attr_vals (names : List Str) (i : IpInfo) : attr names sevenFields (vals i) =
    (((([(gs "country", i.country), (gs "province", i.province), (gs "city", i.city), (gs "isp", i.isp), (gs "asn", i.asn),
      (gs "continent", i.continent), (gs "district", i.district)] : List (Str × Str)).filter
        (fun p => decide (p.1 ∈ names))).getLast?.map (·.2)).getD []) := rfl

theorem line_vals (i : IpInfo) : attr (asnNames ++ lineNames) sevenFields (vals i) = i.asn := by
  rw [attr_vals]; simp +decide

theorem continent_vals (i : IpInfo) : attr continentNames sevenFields (vals i) = i.continent := by
  rw [attr_vals]; simp +decide

/-- All attributes of an answer but the line are texts. -/
def Textual (i : IpInfo) : Prop := ∀ v ∈ [i.country, i.province, i.city, i.isp, i.asn, i.continent, i.district], ∃ s : String, v = gs s

theorem ruled_sub (i : IpInfo) : ∀ v ∈ vals (ruled i), v = [] ∨ v ∈ vals i := by
  unfold vals ruled
  split
  · intro v hv; simp at hv ⊢; grind
  · split
    · intro v hv; simp at hv ⊢; grind
    · intro v hv; right; exact hv

theorem DescribesOn.settled_vals {v : VersionInfo} {W : IP → Prop} {K : IP → IpInfo → Prop} {D : IpData} (h : DescribesOn v W K D)
    {x x' : IpRaw} {i : IpInfo} (hv : x.values = vals (ruled i)) (hs : Settled D x x') :
    ∃ m, x'.values = vals { cleaned i with isp := m } := by
  unfold Settled at hs
  rw [h.normed hv] at hs
  rw [h.fields] at hs
  rcases hs with ⟨u, s, m, h1, h2, h3, h4, rfl⟩ | ⟨rfl, hn⟩
  · refine ⟨m, ?_⟩
    generalize cleaned i = j
    unfold setField; rw [off_isp]; rfl
  · refine ⟨(cleaned i).isp, ?_⟩
    generalize cleaned i = j
    rfl

theorem packed_vals {D : IpData} (hf : D.fields = sevenFields) (i : IpInfo) :
    packedValues D (vals i) = vals { i with district := districtOf i.province } := by
  unfold packedValues
  rw [hf, val_province]
  unfold setOrAdd
  rw [off_district]
  rfl

theorem packed_isp {D : IpData} (hf : D.fields = sevenFields) (i : IpInfo) (m : Str) :
    packedValues D (vals { i with isp := m }) = vals { i with isp := m, district := districtOf i.province } :=
  packed_vals hf { i with isp := m }

/-- The answer of the Java reader where the Go reader of the converted file says `o`: the AS number stands as the line, too. -/
def javaOf (o : IpInfo) : IpInfo := { o with line := o.asn }

/-- The answer of the Rust reader where the Go reader of the converted file says `o` and the source said the continent `c`. -/
def rustOf (c : Str) (o : IpInfo) : IpInfo := { o with continent := spellCode c }

/-- **C119.** An `.ipdb` file of texts that can be converted (C95), converted to `.ipdb`: below 2 GiB the output opens in the Go,
the Java and the Rust reader; for every address of its family the three answer the same finished answer of the source, except
that the Java reader has the AS number as the line and the Rust reader knows the continent only if the source says a code. -/
theorem C119_ipdb {w : World} {fuel : Nat} {orders : Nat → List Str} {canCreate : Str → Bool} {fs : Fs} {a : Args} {Q : Ipdb.Querier}
    (h : Convertible w fuel orders canCreate fs a Q) (hfuel : fuel ≥ 2 ^ 128)
    (htext : ∀ ip i, Family w (.ipdb Q) ip → Says (.ipdb Q) ip i → Textual i)
    {decJ decR : Bytes → Option Ipdb.MetaData} {utf8J utf8R : Bytes → Str}
    (hj : Ipdb.MetaRoundTripInt w.encMeta decJ (Ipdb.buildMeta w.now (OpenDb.versionInfo w (.ipdb Q)) sevenFields))
    (hr : Ipdb.MetaRoundTripInt w.encMeta decR (Ipdb.buildMeta w.now (OpenDb.versionInfo w (.ipdb Q)) sevenFields))
    (huJ : Ipdb.KeepsTexts utf8J) (huR : Ipdb.KeepsTexts utf8R) (ips : List Bytes) :
    ∃ b, converter w fuel orders canCreate fs a = some (fs.set a.output b, .ok ()) ∧
      (b.length < 2 ^ 31 → ∃ Q' j r, Opens w fuel b Q' ∧ Java.create decJ utf8J ips b = .ok j ∧ Rust.Reader decR b = .ok r ∧
        ∀ ip i, Family w (.ipdb Q) ip → TakesLen (OpenDb.versionInfo w (.ipdb Q)) ip → Says (.ipdb Q) ip i →
          ∃ o ja, Finished (AnswersOf w Q) i o ∧ Says (.ipdb Q') ip o ∧
            Java.query utf8J j ip = .ok ja ∧ javaTexts ja = javaOf o ∧
            Rust.query utf8R r ip = .ok (rustOf i.continent o)) := by
  obtain ⟨D, cap, hdes, hd, ht, hasc, hord⟩ := h.dumped hfuel
  have e1 : addField sevenFields fDistrict = sevenFields := by decide +kernel
  have hmd : Ipdb.buildMeta w.now D.version (addField D.fields fDistrict) =
      Ipdb.buildMeta w.now (OpenDb.versionInfo w (.ipdb Q)) sevenFields := by rw [hdes.fields, e1, hdes.version]
  have htx : TextValues D := by
    intro x hx v hv
    obtain ⟨i, ⟨ip, h1, h2⟩, hi⟩ := hdes.on.val x hx
    rw [hi] at hv
    rcases ruled_sub i v hv with rfl | hv
    · exact ⟨"", rfl⟩
    · exact htext ip i h1 h2 v hv
  obtain ⟨b, c1, c2⟩ := C119_table w fuel orders canCreate fs a cap D hd ht htx h.line hord h.single h.target h.creates
    (by rw [hmd]; exact h.codec) (decJ := decJ) (decR := decR) (by rw [hmd]; exact hj) (by rw [hmd]; exact hr) huJ huR ips
  refine ⟨b, c1, fun hl => ?_⟩
  obtain ⟨Q', j, r, o1, o2, o3, o4, _⟩ := c2 hl
  refine ⟨Q', j, r, o1, o2, o3, fun ip i hf htl hs => ?_⟩
  obtain ⟨x, hx, hc, hv⟩ := hdes.on.covering hf hs
  have hsup : Supports D.version ip := by rw [hdes.version]; exact Dump.Walked.supports hf
  obtain ⟨x', n, ja, k1, k2, k3, k4, k5⟩ := o4 ip x hsup (by rw [hdes.version]; exact htl) hx hc
  obtain ⟨m, hm⟩ := hdes.on.settled_vals hv k1
  have hpv : packedValues D x'.values = vals { cleaned i with isp := m, district := districtOf (cleaned i).province } := by
    rw [hm]; exact packed_isp hdes.fields (cleaned i) m
  have hfin := hdes.on.finished hv k1
  refine ⟨_, ja, hfin, ⟨n, k2⟩, k3, ?_, ?_⟩
  · rw [k4, hpv, hdes.fields, e1, line_vals]
    have hasn := hfin.2.2.2.1
    unfold javaOf
    generalize converted D x'.values = o at *
    generalize cleaned i = c at *
    simp only [hasn]
  · have hcc := cleaned_continent i
    rw [k5, hpv, hdes.fields, e1, continent_vals]
    unfold rustOf
    generalize converted D x'.values = o at *
    generalize cleaned i = c at *
    simp only [hcc]

theorem ordinary_meta {w : World} (hw : GoWorld w) (hnow : JsonText.Fits32 w.now) {dec : Bytes → Option Ipdb.MetaData} (hd : JsonText.ReadsOrdinary dec)
    {v : VersionInfo} (h1 : Json.IsText v.version) (h2 : ∀ s ∈ v.extraInfo, Json.IsText s) :
    Ipdb.MetaRoundTripInt w.encMeta dec (Ipdb.buildMeta w.now v sevenFields) := by
  intro N S hN hS
  obtain ⟨nf, ne, e⟩ := hw.encMeta { Ipdb.buildMeta w.now v sevenFields with nodeCount := (N : Nat), totalSize := (S : Nat) }
  rw [e]
  exact Ipdb.C113_metadata hd nf ne hnow (by decide +kernel) h1 h2 seven_texts N S hN hS

/-- **C119 (JSON).** The same in a program that uses Go's JSON, for Java and Rust readers whose JSON libraries read ordinary
metadata as RFC 8259 says (C113). -/
theorem C119_json {w : World} {fuel : Nat} {orders : Nat → List Str} {canCreate : Str → Bool} {fs : Fs} {a : Args} {Q : Ipdb.Querier}
    (h : Convertible w fuel orders canCreate fs a Q) (hfuel : fuel ≥ 2 ^ 128) (hw : GoWorld w) (hnow : JsonText.Fits32 w.now)
    (htext : ∀ ip i, Family w (.ipdb Q) ip → Says (.ipdb Q) ip i → Textual i)
    {decJ decR : Bytes → Option Ipdb.MetaData} {utf8J utf8R : Bytes → Str} (hJ : JsonText.ReadsOrdinary decJ) (hR : JsonText.ReadsOrdinary decR)
    (huJ : Ipdb.KeepsTexts utf8J) (huR : Ipdb.KeepsTexts utf8R) (ips : List Bytes) :
    ∃ b, converter w fuel orders canCreate fs a = some (fs.set a.output b, .ok ()) ∧
      (b.length < 2 ^ 31 → ∃ Q' j r, Opens w fuel b Q' ∧ Java.create decJ utf8J ips b = .ok j ∧ Rust.Reader decR b = .ok r ∧
        ∀ ip i, Family w (.ipdb Q) ip → TakesLen (OpenDb.versionInfo w (.ipdb Q)) ip → Says (.ipdb Q) ip i →
          ∃ o ja, Finished (AnswersOf w Q) i o ∧ Says (.ipdb Q') ip o ∧
            Java.query utf8J j ip = .ok ja ∧ javaTexts ja = javaOf o ∧
            Rust.query utf8R r ip = .ok (rustOf i.continent o)) := by
  obtain ⟨b, r, Q0, _, hr, hq, hQ, _⟩ := open_ipdb h.kind h.opened
  obtain rfl : Q = Q0 := by injection hq
  subst hQ
  obtain ⟨t1, t2⟩ := reader_texts hw hr
  exact C119_ipdb h hfuel htext (ordinary_meta hw hnow hJ t1 t2) (ordinary_meta hw hnow hR t1 t2) huJ huR ips

/-! ### The continent is lost -/

theorem decodeInfo_spelled {r : Ipdb.Reader} {body : Bytes} {off : Int} {vs : List Str}
    (hc : r.continentOffset = Offset Ipdb.FieldContinentCode r.md.fields) (h : r.decodeInfo body off = .ok vs) :
    ∃ cols, cols.length = r.md.fields.length ∧ vs = Ipdb.spelled r.md.fields cols := by
  unfold Ipdb.Reader.decodeInfo at h
  simp only [] at h
  split at h
  · cases h
  · split at h
    · cases h
    · rename_i h1 h2
      generalize hcols : ((splitByte 0x09 body).drop off.toNat).take r.md.fields.length = cols at h
      have hlen : cols.length = r.md.fields.length := by
        rw [← hcols, List.length_take, List.length_drop]; omega
      refine ⟨cols, hlen, ?_⟩
      unfold Ipdb.spelled
      rw [hc] at h
      cases ho : Offset Ipdb.FieldContinentCode r.md.fields with
      | none => rw [ho] at h; exact (Res.ok.inj h).symm
      | some i =>
        rw [ho] at h
        simp only [] at h
        have hi := (List.getElem?_eq_some_iff.mp (Ipdb.Offset_some ho)).1
        rw [List.getElem?_eq_getElem (by omega)] at h
        simp only [] at h
        rw [← Res.ok.inj h]
        simp only []
        apply List.ext_getElem?
        intro k
        rw [List.getElem?_modify, List.getElem?_set]
        by_cases hik : i = k
        · subst hik
          rw [if_pos rfl, if_pos (by omega), List.getElem?_eq_getElem (by omega)]
          simp
        · rw [if_neg hik]
          cases cols[k]? <;> simp [hik]

theorem spelled_no_code (v : Str) : spellCode (spellContinent v) = [] := by
  have hall : ∀ p ∈ continentTable, spellCode p.2 = [] := by decide +kernel
  unfold spellContinent
  cases h : continentTable.find? (fun p => decide (p.1 = v)) with
  | some p => exact hall p (List.mem_of_find?_eq_some h)
  | none => unfold spellCode; rw [h]

/-- The Go reader never answers with the code of a continent. -/
theorem query_no_code {w : World} {fuel : Nat} {fs : Fs} {f : Str} {Q : Ipdb.Querier} (he : pathExt f = gs ".ipdb")
    (h : NewDb w (converterFormats w fuel) fs f = .ok (.ipdb Q))
    (h1 : (Q.r.md.fields.filter fun f => decide (f = gs "continent_code")).length ≤ 1) {ip : IP} {i : IpInfo} (hs : Says (.ipdb Q) ip i) :
    spellCode i.continent = [] := by
  obtain ⟨b, r, Q0, _, hr, hq, hQ, hquery⟩ := open_ipdb he h
  obtain rfl : Q = Q0 := by injection hq
  subst hQ
  obtain ⟨m, hm⟩ := hs
  rw [hquery] at hm
  have hc := (Ipdb.Exact.newReader_data hr).2.2.2.2.2.2.1
  have key : ∃ body off, ∃ vs, Q.r.decodeInfo body off = .ok vs ∧ i = Ipdb.buildInfo Q.r.md.fields vs {} := by
    cases hf : Q.r.find0 ip with
    | panic => unfold Ipdb.Querier.Query Ipdb.Querier.QueryInternal at hm; simp only [hf] at hm; cases hm
    | err e =>
      rw [Ipdb.Query_find0_err hf] at hm
      split at hm
      · cases hm
      · rename_i off _
        obtain ⟨vs, h2, h3⟩ := Res.bind_eq_ok.mp hm
        exact ⟨_, off, vs, h2, (congrArg Prod.fst (Res.ok.inj h3)).symm⟩
    | ok x =>
      obtain ⟨node, body, mask⟩ := x
      rw [Ipdb.Query_find0 hf] at hm
      split at hm
      · cases hm
      · rename_i off _
        obtain ⟨vs, h2, h3⟩ := Res.bind_eq_ok.mp hm
        exact ⟨_, off, vs, h2, (congrArg Prod.fst (Res.ok.inj h3)).symm⟩
  obtain ⟨body, off, vs, h2, rfl⟩ := key
  obtain ⟨cols, h3, rfl⟩ := decodeInfo_spelled hc h2
  rw [Ipdb.go_info h3 h1]
  exact spelled_no_code _

/-- **C119 (the continent).** With at most one continent column in the source the Rust reader answers without a continent
everywhere on the converted file. -/
theorem C119_no_continent {w : World} {fuel : Nat} {orders : Nat → List Str} {canCreate : Str → Bool} {fs : Fs} {a : Args} {Q : Ipdb.Querier}
    (h : Convertible w fuel orders canCreate fs a Q)
    (h1 : (Q.r.md.fields.filter fun f => decide (f = gs "continent_code")).length ≤ 1) {ip : IP} {i o : IpInfo}
    (hs : Says (.ipdb Q) ip i) : (rustOf i.continent o).continent = [] :=
  query_no_code h.kind h.opened h1 hs

end Uip.Program
