import Verif.Proof.Ipdb.Redump
import Verif.Props.Ipdb
import Verif.Props.Export
/-!
# Properties C24-C28: dumping a database

`Export.BuildIPData` is the dump loop over any lookup function `find`; its first argument bounds the number of
rounds of the model (the Go loop is unbounded), `some` means the loop ended within them.
`Ipdb.dump` is the dump of an `.ipdb` file.
-/
namespace Uip.Dump
open Uip Uip.Spec Uip.Export Uip.Ipdb

section
variable {fuel : Nat} {fieldMap : GoMap Str} {fields : List Str} {ept : Option Exporter} {version : VersionInfo}
  {find : Find} {d : IpData}

theorem build_ok (h : BuildIPData fuel fieldMap fields ept version find = some (.ok d)) :
    d.fields = dumpFields fieldMap fields ept ∧ d.version = version ∧
      buildLoop find (Export.rowValues fieldMap d.fields ept) fuel (firstMarker version) [] = some (.ok d.ips) := by
  unfold BuildIPData at h
  simp only [] at h
  cases hb : buildLoop find (Export.rowValues fieldMap (dumpFields fieldMap fields ept) ept) fuel (firstMarker version) [] with
  | none => rw [hb] at h; cases h
  | some r =>
    rw [hb] at h
    simp only [Option.map_some, Option.some.injEq, Res.bind_eq_ok, Res.ok.injEq] at h
    obtain ⟨ips, rfl, rfl⟩ := h
    exact ⟨rfl, rfl, hb⟩

theorem build_sound (hn : ReturnsOwnNet (dumpLen version) find) (hc : Coherent (dumpLen version) find)
    (h : BuildIPData fuel fieldMap fields ept version find = some (.ok d)) :
    Tiles (famLo (dumpLen version)) (d.ips.map (·.cidr)) (famEnd (dumpLen version)) ∧
      ∀ r ∈ d.ips, WFNet r.cidr ∧ r.cidr.ip.length = dumpLen version ∧
        FromFind (dumpLen version) find (Export.rowValues fieldMap d.fields ept) r := by
  obtain ⟨_, _, h3⟩ := build_ok h
  obtain ⟨h4, h5⟩ := firstMarker_spec version
  exact buildLoop_sound (dumpLen_cases version) hn hc _ _ _ _ h3 h4 (by simp [Tiles, h5]) (by simp)

/-! ## C24 -/

/-- C24: a successful dump yields well-formed networks that cover the family from its first to its last address,
one right after the other. -/
theorem C24_dump_tiles (hn : ReturnsOwnNet (dumpLen version) find) (hc : Coherent (dumpLen version) find)
    (h : BuildIPData fuel fieldMap fields ept version find = some (.ok d)) :
    Tiles (famLo (dumpLen version)) (d.ips.map (·.cidr)) (famEnd (dumpLen version)) ∧
      ∀ r ∈ d.ips, WFNet r.cidr ∧ r.cidr.ip.length = dumpLen version :=
  ⟨(build_sound hn hc h).1, fun r hr => ⟨((build_sound hn hc h).2 r hr).1, ((build_sound hn hc h).2 r hr).2.1⟩⟩

/-- C24: every address of the family is in exactly one dumped row. -/
theorem C24_dump_partition (hn : ReturnsOwnNet (dumpLen version) find) (hc : Coherent (dumpLen version) find)
    (h : BuildIPData fuel fieldMap fields ept version find = some (.ok d)) (a : IP) (ha : InFam (dumpLen version) a) :
    ∃ (i : Nat) (r : IpRaw), d.ips[i]? = some r ∧ Covers r.cidr (addrNum a) ∧
      ∀ (j : Nat) (r' : IpRaw), d.ips[j]? = some r' → Covers r'.cidr (addrNum a) → j = i := by
  have ht := (C24_dump_tiles hn hc h).1
  obtain ⟨n, hn', hcv⟩ := ((tiles_covers ht).2 (addrNum a)).mpr ha.2
  obtain ⟨i, hi, he⟩ := List.getElem_of_mem hn'
  have hi' : (d.ips.map (·.cidr))[i]? = some n := by rw [List.getElem?_eq_getElem hi, he]
  rw [List.getElem?_map, Option.map_eq_some_iff] at hi'
  obtain ⟨r, hr, rfl⟩ := hi'
  refine ⟨i, r, hr, hcv, fun j r' hj hc' => ?_⟩
  exact tiles_unique ht (addrNum a) (i := j) (j := i) (by rw [List.getElem?_map, hj]; rfl)
    (by rw [List.getElem?_map, hr]; rfl) hc' hcv

/-! ## C25 -/

/-- C25: in a successful dump, if the lookup of an address gives a record, then the row covering the address is the
row of the network found, and its values are those of exporting the record found. -/
theorem C25_dump_values (hn : ReturnsOwnNet (dumpLen version) find) (hc : Coherent (dumpLen version) find)
    (h : BuildIPData fuel fieldMap fields ept version find = some (.ok d)) (a : IP) (ha : InFam (dumpLen version) a)
    (r : IpRaw) (hr : r ∈ d.ips) (hcov : Covers r.cidr (addrNum a)) (c : IPNet) (info : GoMap Str)
    (hf : find a = .ok (c, info)) : c = r.cidr ∧ Export.rowValues fieldMap d.fields ept info = .ok r.values := by
  obtain ⟨_, _, b, info', hb, hfb, hrow, _⟩ := (build_sound hn hc h).2 r hr
  obtain ⟨h1, h2⟩ := hc b a _ _ _ _ hb ha hfb hf hcov
  exact ⟨h1, h2 ▸ hrow⟩

/-- C25 with a rule: `rowValues` is `Export` (whose meaning is C29), applied to the record; without a rule it is the
record's value for each dumped field. -/
theorem C25_row_values (info : GoMap Str) :
    (∀ e : Exporter, Export.rowValues fieldMap e.fields (some e) info = e.Export (Select fieldMap e.fields) info) ∧
    Export.rowValues fieldMap fields none info = .ok (fields.map (fieldValue fieldMap info)) := by
  refine ⟨fun e => rfl, ?_⟩
  unfold Export.rowValues
  simp only [Res.ok.injEq]
  apply List.map_congr_left
  intro f _
  unfold fieldValue
  cases h1 : mapGet fieldMap f with
  | none => rfl
  | some k => simp only [Option.bind_some]; cases mapGet info k <;> rfl

/-! ## C26 -/

/-- C26: for every lookup that returns a network of the asked family containing the asked address, the dump loop
ends: there is one outcome, reached by every run that is given enough rounds. -/
theorem C26_dump_terminates (hn : ReturnsOwnNet (dumpLen version) find) :
    ∃ out, ∀ fuel ≥ 2 ^ 128, BuildIPData fuel fieldMap fields ept version find = some out := by
  obtain ⟨h4, h5⟩ := firstMarker_spec version
  obtain ⟨r, hr⟩ := buildLoop_terminates (dumpLen_cases version) hn
    (row := Export.rowValues fieldMap (dumpFields fieldMap fields ept) ept) (2 ^ 128) _ [] h4 (by
      unfold famEnd; split <;> omega)
  refine ⟨r >>= fun ips => .ok ⟨dumpFields fieldMap fields ept, version, ips⟩, fun fuel hf => ?_⟩
  obtain ⟨k, rfl⟩ := Nat.exists_eq_add_of_le hf
  unfold BuildIPData
  simp only [buildLoop_mono _ k _ _ _ hr]
  rfl

end

/-- A lookup that answers `0.0.0.0/8` to every question. -/
def stuck : Find := fun _ => .ok (⟨[0, 0, 0, 0], [255, 0, 0, 0]⟩, [])

/-- C26: the hypothesis is needed: with a lookup that does not return a network containing the asked address the
loop runs for ever. -/
theorem C26_may_loop_forever (version : VersionInfo) (fieldMap : GoMap Str) (fields : List Str) (fuel : Nat) :
    BuildIPData fuel fieldMap fields none version stuck = none := by
  have : ∀ fuel marker acc, buildLoop stuck (Export.rowValues fieldMap (dumpFields fieldMap fields none) none)
      fuel marker acc = none := by
    intro fuel
    induction fuel with
    | zero => intros; rfl
    | succ fuel ih =>
      intro marker acc
      have hl : LastIP ⟨[0, 0, 0, 0], [255, 0, 0, 0]⟩ = .ok [0, 255, 255, 255] := by decide +kernel
      simp only [buildLoop, stuck, Export.rowValues, hl, NextStart_ok hl]
      exact ih _ _
  unfold BuildIPData
  simp only [this]; rfl

/-! ## ipdb files -/

section
variable {dec : Bytes → Option MetaData} {fmtDate : Int → Str} {bytes : Bytes} {r : Reader} {fuel : Nat}
  {ept : Option Exporter} {d : IpData}

theorem dump_eq (ho : newReaderFromBytes dec bytes = .ok r) :
    Ipdb.dump fuel dec fmtDate bytes ept = BuildIPData fuel CommonFieldsMap r.md.fields ept (r.version fmtDate)
      (fun ip => r.findMap ip (gs "CN")) := by
  unfold Ipdb.dump; rw [ho]

/-- C24 for `.ipdb`: any accepted file. -/
theorem C24_ipdb (ho : newReaderFromBytes dec bytes = .ok r)
    (h : Ipdb.dump fuel dec fmtDate bytes ept = some (.ok d)) :
    Tiles (famLo (dumpLen (r.version fmtDate))) (d.ips.map (·.cidr)) (famEnd (dumpLen (r.version fmtDate))) ∧
      ∀ x ∈ d.ips, WFNet x.cidr ∧ x.cidr.ip.length = dumpLen (r.version fmtDate) := by
  rw [dump_eq ho] at h
  obtain ⟨h1, h2⟩ := reader_dumpLen (newReader_cacheOK ho) fmtDate
  exact C24_dump_tiles h1 h2 h

theorem dumpLen_reader (fmtDate : Int → Str) (r : Reader) (hc : (dumpLen (r.version fmtDate)) = 16) :
    r.md.ipVersion = 2 := by
  unfold dumpLen at hc
  split at hc
  · rename_i h
    unfold VersionInfo.IsIpV6 Reader.version MetaData.IpType at h
    by_cases h1 : r.md.ipVersion = 1
    · rw [if_pos h1] at h; simp [IpV4, IpV6] at h
    · by_cases h2 : r.md.ipVersion = 2
      · exact h2
      · rw [if_neg h1, if_neg h2] at h; simp [IpAll, IpV6] at h
  · cases hc

/-- An address the dump of `v` walks over: IPv4 addresses for an IPv4 walk, proper IPv6 addresses for an IPv6 walk. -/
def Walked (v : VersionInfo) (a : IP) : Prop := ValidIP a ∧ ((To4 a).isSome ↔ dumpLen v = 4)

theorem Walked.inFam {v : VersionInfo} {a : IP} (h : Walked v a) : InFam (dumpLen v) a := by
  rcases dumpLen_cases v with h4 | h16
  · rw [h4, InFam4_iff h.1]; exact h.2.mpr h4
  · rw [h16]; exact ⟨h.1, Nat.zero_le _, addrNum_lt h.1⟩

/-- C25 for `.ipdb`: any accepted file; the lookup of a walked address succeeds and its record, exported, is the row
that covers the address. -/
theorem C25_ipdb (ho : newReaderFromBytes dec bytes = .ok r)
    (h : Ipdb.dump fuel dec fmtDate bytes ept = some (.ok d)) (a : IP) (ha : Walked (r.version fmtDate) a)
    (x : IpRaw) (hx : x ∈ d.ips) (hcov : Covers x.cidr (addrNum a)) :
    ∃ info, r.findMap a (gs "CN") = .ok (x.cidr, info) ∧
      Export.rowValues CommonFieldsMap d.fields ept info = .ok x.values := by
  rw [dump_eq ho] at h
  have hco := newReader_cacheOK ho
  obtain ⟨h1, h2⟩ := reader_dumpLen hco fmtDate
  obtain ⟨_, hl, b, info, hb, hfb, hrow, _⟩ := (build_sound h1 h2 h).2 x hx
  refine ⟨info, ?_, hrow⟩
  apply findMap_whole hco hb.1 ha.1 _ hfb hcov
  obtain ⟨_, hl', _, _⟩ := findMap_ownNet hco hb.1 hfb
  rw [hl] at hl'
  cases hs : (To4 b).isSome with
  | true => rw [hs] at hl'; exact (ha.2.mpr hl').symm
  | false =>
    rw [hs] at hl'
    simp only [Bool.false_eq_true, if_false] at hl'
    cases hs' : (To4 a).isSome with
    | false => rfl
    | true => have := ha.2.mp hs'; omega

/-- The names a dump uses for the columns of an `.ipdb` file. -/
def dumpNames : List (Str × Str) :=
  [(gs "country_name", gs "country"), (gs "region_name", gs "province"), (gs "city_name", gs "city"),
   (gs "isp_domain", gs "isp"), (gs "asn", gs "asn"), (gs "continent_code", gs "continent"),
   (gs "utc_offset", gs "utcOffset"), (gs "latitude", gs "latitude"), (gs "longitude", gs "longitude"),
   (gs "china_admin_code", gs "chinaAdminCode"), (gs "district", gs "district"), (gs "line", gs "line")]

/-- C25: the value of a dumped field is taken from the column of that name. -/
theorem C25_names (f : Str) : mapGet CommonFieldsMap f = ((dumpNames.find? fun p => decide (p.2 = f)).map (·.1)) := by
  have h : CommonFieldsMap = dumpNames.map fun p => (p.2, p.1) := by decide +kernel
  rw [h]
  generalize dumpNames = l
  induction l with
  | nil => rfl
  | cons p l ih =>
    rw [List.map_cons, List.find?_cons]
    unfold mapGet
    by_cases hp : p.2 = f
    · rw [if_pos hp, decide_eq_true hp]; rfl
    · rw [if_neg hp, decide_eq_false hp]; exact ih

/-- C25: without a rule the fields of the dump are the known columns of the file, in their order, under the common names;
with a rule they are the rule's. -/
theorem C25_fields (ho : newReaderFromBytes dec bytes = .ok r) (h : Ipdb.dump fuel dec fmtDate bytes ept = some (.ok d)) :
    d.fields = match ept with
      | none => r.md.fields.flatMap fun c => (dumpNames.filter fun p => decide (p.1 = c)).map (·.2)
      | some e => e.fields := by
  rw [dump_eq ho] at h
  have hf := (build_ok h).1
  rw [hf]
  cases ept with
  | some e => rfl
  | none =>
    show ExtKeys CommonFieldsMap r.md.fields = _
    have hc : CommonFieldsMap = dumpNames.map fun p => (p.2, p.1) := by decide +kernel
    unfold ExtKeys
    congr 1
    funext c
    rw [hc]
    generalize dumpNames = l
    induction l with
    | nil => rfl
    | cons p l ih =>
      rw [List.map_cons, List.filter_cons, List.filter_cons]
      by_cases hp : p.1 = c
      · rw [if_pos (by simp [hp]), if_pos (by simp [hp]), List.map_cons, List.map_cons, ih]
      · rw [if_neg (by rw [beq_iff_eq]; exact fun e => hp e.symm), if_neg (by simp [hp]), ih]

/-- C26 for `.ipdb`: dumping terminates on every byte string, whatever the rule. -/
theorem C26_ipdb (dec : Bytes → Option MetaData) (fmtDate : Int → Str) (bytes : Bytes) (ept : Option Exporter) :
    ∃ out, ∀ fuel ≥ 2 ^ 128, Ipdb.dump fuel dec fmtDate bytes ept = some out := by
  cases ho : newReaderFromBytes dec bytes with
  | err e => exact ⟨.err e, fun _ _ => by unfold Ipdb.dump; rw [ho]⟩
  | panic => exact ⟨.panic, fun _ _ => by unfold Ipdb.dump; rw [ho]⟩
  | ok r =>
    obtain ⟨out, h⟩ := C26_dump_terminates (fieldMap := CommonFieldsMap) (fields := r.md.fields) (ept := ept)
      (reader_dumpLen (newReader_cacheOK ho) fmtDate).1
    exact ⟨out, fun fuel hf => by rw [dump_eq ho]; exact h fuel hf⟩

/-! ## C27 -/

theorem newReader_continent (ho : newReaderFromBytes dec bytes = .ok r) :
    r.continentOffset = Offset FieldContinentCode r.md.fields := by
  unfold newReaderFromBytes at ho
  simp only [] at ho
  split at ho
  · cases ho
  split at ho
  · cases ho
  split at ho
  · cases ho
  split at ho
  · cases ho
  split at ho
  · cases ho
  split at ho
  · simp only [Res.bind_eq_ok, Res.pure_eq, Res.ok.injEq] at ho
    obtain ⟨_, _, _, _, rfl⟩ := ho; rfl
  · simp only [Res.pure_eq, Res.ok.injEq] at ho
    subst ho; rfl

theorem tiles_disjoint {lo hi : Nat} {l : List IpRaw} (h : Tiles lo (l.map (·.cidr)) hi) :
    l.Pairwise (fun a b => ¬ Overlap a.cidr b.cidr) := by
  induction l generalizing lo with
  | nil => exact .nil
  | cons x l ih =>
    obtain ⟨_, h2⟩ := h
    change Tiles (netEnd x.cidr) (l.map (·.cidr)) hi at h2
    refine .cons ?_ (ih h2)
    intro y hy ho
    have := ((tiles_covers h2).2 (netLo y.cidr)).mp ⟨y.cidr, List.mem_map_of_mem hy, by
      unfold Covers netLo netEnd; have := Nat.two_pow_pos (hostBits y.cidr); omega⟩
    unfold Overlap at ho; omega

/-- C27: dump any accepted `.ipdb` file without a rule and pack the dump again: every address the dump walks over
gets the same record and mask from the new file as from the old one.  (Hypotheses on the file: at most one continent
column; on the dump: at least one known field, no `::/0` row, records below 64 KiB; the new file is below 4 GiB.) -/
theorem C27_convert {enc : MetaData → Bytes} {now : Int} (ho : newReaderFromBytes dec bytes = .ok r)
    (hone : (r.md.fields.filter (fun f => decide (f = FieldContinentCode))).length ≤ 1)
    (h : Ipdb.dump fuel dec fmtDate bytes none = some (.ok d)) (hne : d.fields ≠ [])
    (hall : ∀ x ∈ d.ips, hostBits x.cidr < 128)
    (hsmall : ∀ x ∈ d.ips, (joinByte 0x09 x.values).length < 65536)
    (hj : MetaRoundTrip enc dec (buildMeta now d.version d.fields)) :
    ∃ bytes', pack enc now d = .ok bytes' ∧ (bytes'.length < 2 ^ 32 →
      ∃ q', newQuerier dec bytes' = .ok q' ∧
        ∀ a, Walked d.version a → ∃ info mask, q'.Query a = .ok (info, mask) ∧
          Querier.Query ⟨r, []⟩ a = .ok (info, mask)) := by
  have hd := h
  rw [dump_eq ho] at hd
  obtain ⟨hfields, hver, _⟩ := build_ok hd
  have hfields' : d.fields = ExtKeys CommonFieldsMap r.md.fields := hfields
  obtain ⟨htiles, hwf⟩ := C24_ipdb ho h
  have hco := newReader_cacheOK ho
  have hcont := newReader_continent ho
  -- what each row is
  have hrow : ∀ x ∈ d.ips, ∀ a, Walked d.version a → Covers x.cidr (addrNum a) →
      ∃ n body m off values info, r.find0 a = .ok (n, body, m) ∧ mapGet r.md.languages (gs "CN") = some off ∧
        r.decodeInfo body off = .ok values ∧ fillMap r.md.fields values [] = .ok info ∧ x.cidr = IpNet a m ∧
        x.values = plainRow d.fields info := by
    intro x hx a ha hcov
    rw [hver] at ha
    obtain ⟨info, h1, h2⟩ := C25_ipdb ho h a ha x hx hcov
    obtain ⟨off, n, body, m, values, k1, k2, k3, k4, k5⟩ := findMap_ok h1
    rw [rowValues_none] at h2
    exact ⟨n, body, m, off, values, info, k2, k1, k3, k4, k5, by injection h2 with h2; exact h2.symm⟩
  have hrow' : ∀ x ∈ d.ips, ∃ info values body off, r.decodeInfo body off = .ok values ∧
      fillMap r.md.fields values [] = .ok info ∧ x.values = plainRow d.fields info := by
    intro x hx
    obtain ⟨h1, h2⟩ := reader_dumpLen hco fmtDate
    obtain ⟨_, _, b, info, _, hfb, hr, _⟩ := (build_sound h1 h2 hd).2 x hx
    obtain ⟨off, n, body, m, values, k1, k2, k3, k4, k5⟩ := findMap_ok hfb
    rw [rowValues_none] at hr
    exact ⟨info, values, body, off, k3, k4, by injection hr with hr; exact hr.symm⟩
  have hok : RowsOK d :=
    { fields := hne
      wf := fun x hx => (hwf x hx).1
      notAll := hall
      len := fun x hx => by
        obtain ⟨info, values, body, off, _, _, hv⟩ := hrow' x hx
        rw [hv]; simp [plainRow]
      small := hsmall }
  have hval : ValuesOK d :=
    { noTab := by
        intro x hx v hv
        obtain ⟨info, values, body, off, h1, h2, hvv⟩ := hrow' x hx
        have hnt := (decodeInfo_values h1 hcont hone).2.1
        rw [hvv] at hv
        unfold plainRow at hv
        obtain ⟨f, _, rfl⟩ := List.mem_map.mp hv
        have hmap : ∀ (fs vs : List Str) (m0 m : GoMap Str), fillMap fs vs m0 = .ok m →
            (∀ v ∈ vs, (0x09 : UInt8) ∉ v) → (∀ p ∈ m0, (0x09 : UInt8) ∉ p.2) → ∀ p ∈ m, (0x09 : UInt8) ∉ p.2 := by
          intro fs
          induction fs with
          | nil => intro vs m0 m hm _ h0; simp [fillMap] at hm; subst hm; exact h0
          | cons g fs ih =>
            intro vs m0 m hm hvs h0
            cases vs with
            | nil => simp [fillMap] at hm
            | cons w vs =>
              simp only [fillMap] at hm
              refine ih vs _ m hm (fun v hv => hvs v (by simp [hv])) ?_
              intro p hp
              rcases List.mem_cons.mp hp with rfl | hp
              · exact hvs w (by simp)
              · exact h0 p hp
        have hget : ∀ (m : GoMap Str) (k v : Str), mapGet m k = some v → (k, v) ∈ m := by
          intro m
          induction m with
          | nil => intro k v h; cases h
          | cons p m ih =>
            intro k v h
            simp only [mapGet] at h
            split at h
            · rename_i hk; cases h; subst hk; simp
            · exact List.mem_cons_of_mem _ (ih k v h)
        cases e1 : mapGet CommonFieldsMap f with
        | none => simp
        | some k =>
          simp only []
          cases e2 : mapGet info k with
          | none => simp
          | some w => exact hmap _ _ _ _ h2 hnt (by simp) _ (hget _ _ _ e2)
      continent := by rw [hfields']; exact ExtKeys_oneContinent hone }
  have hdis : DisjointRows (rowsOf d) := by
    unfold DisjointRows rowsOf
    rw [List.pairwise_map]
    exact tiles_disjoint htiles
  obtain ⟨bytes', hp, hq⟩ := C12_pack_query_mask hok hval hdis hj
  refine ⟨bytes', hp, fun hl => ?_⟩
  obtain ⟨q', hq1, hq2⟩ := hq hl
  refine ⟨q', hq1, fun a ha => ?_⟩
  have hfam := ha.inFam
  rw [hver] at hfam
  obtain ⟨n, hn, hcv⟩ := ((tiles_covers htiles).2 (addrNum a)).mpr hfam.2
  obtain ⟨x, hx, rfl⟩ := List.mem_map.mp hn
  obtain ⟨n, body, m, off, values, info, k1, k2, k3, k4, k5, k6⟩ := hrow x hx a ha hcv
  have hsup : Supports d.version a := by
    unfold Supports
    have h2 := ha.2
    have e : d.version.ipType = IpV6 ↔ dumpLen d.version = 16 := by
      unfold dumpLen VersionInfo.IsIpV6
      by_cases hv : d.version.ipType = IpV6 <;> simp [hv]
    split
    · rename_i hs
      intro he
      have := h2.mp hs; have := e.mp he; omega
    · rename_i hs
      have : dumpLen d.version = 16 := by
        rcases dumpLen_cases d.version with h | h
        · exact absurd (h2.mpr h) hs
        · exact h
      rw [e.mpr this]; decide
  refine ⟨_, _, hq2 a x ha.1 hsup hx hcv, ?_⟩
  rw [Query_find0 k1, k2]
  simp only [k3, Res.ok_bind]
  obtain ⟨_, _, hspell⟩ := decodeInfo_values k3 hcont hone
  rw [k6, hfields', infoOf_dumped k4 hspell]
  congr 2
  -- the mask
  have hm := (find0_mask hco k1).1
  obtain ⟨_, e2, e3, _⟩ := C04_ip_net a ha.1 m hm
  rw [k5]
  unfold maskFor hostBits
  rw [e2, e3]
  split <;> simp_all <;> omega

/-! ### Packed files -/

theorem Written.dumpLen_eq {now : Int} {ipd : IpData} (hw : Written now ipd r) (fmtDate : Int → Str) :
    dumpLen (r.version fmtDate) = dumpLen ipd.version := by
  obtain ⟨N, S, e⟩ := hw.md
  unfold dumpLen VersionInfo.IsIpV6 Reader.version MetaData.IpType
  rw [e]
  unfold buildMeta ipVersion
  dsimp only
  by_cases h1 : ipd.version.ipType = IpV4
  · rw [if_pos h1, h1]; rfl
  · rw [if_neg h1]
    by_cases h2 : ipd.version.ipType = IpV6
    · rw [if_pos h2, h2]; rfl
    · rw [if_neg h2]
      simp [IpAll, IpV6] at *
      exact h2

theorem Walked.supports {v : VersionInfo} {a : IP} (ha : Walked v a) : Supports v a := by
  unfold Supports
  have h2 := ha.2
  have e : v.ipType = IpV6 ↔ dumpLen v = 16 := by
    unfold dumpLen VersionInfo.IsIpV6
    by_cases hv : v.ipType = IpV6 <;> simp [hv]
  split
  · rename_i hs
    intro he
    have := h2.mp hs; have := e.mp he; omega
  · rename_i hs
    have : dumpLen v = 16 := by
      rcases dumpLen_cases v with h | h
      · exact absurd (h2.mpr h) hs
      · exact h
    rw [e.mpr this]; decide

theorem fillMap_total {fs vs : List Str} (h : vs.length = fs.length) (m0 : GoMap Str) : ∃ m, fillMap fs vs m0 = .ok m := by
  induction fs generalizing vs m0 with
  | nil => exact ⟨m0, by cases vs <;> rfl⟩
  | cons f fs ih =>
    cases vs with
    | nil => simp at h
    | cons v vs => exact ih (by simpa using h) _

/-- A covered address has a record in the packed file, and its network is the row's network. -/
theorem packed_find {now : Int} {ipd : IpData} (hw : Written now ipd r) (hok : RowsOK ipd) (hval : ValuesOK ipd)
    (hdis : DisjointRows (rowsOf ipd)) {a : IP} (hv : ValidIP a) (hs : Supports ipd.version a) {row : IpRaw}
    (hr : row ∈ ipd.ips) (hcov : Covers row.cidr (addrNum a)) :
    ∃ info, r.findMap a (gs "CN") = .ok (IpNet a (maskFor row.cidr a), info) := by
  obtain ⟨n, _, hf⟩ := hw.covered hok hv hs (rowOf_disjoint hok hdis hr hcov)
  have hd := decodeInfo_stored (values := row.values) hw.fields_eq hw.continent (hok.len row hr) hok.fields (hval.noTab row hr)
  have hl : (decoded ipd.fields row.values).length = r.md.fields.length := by
    have := (decodeInfo_values hd (by rw [hw.continent, hw.fields_eq]) (by
      rw [hw.fields_eq, covertFields_eq, List.filter_map, List.length_map]
      have := hval.continent
      unfold OneContinent at this
      refine Nat.le_trans (Nat.le_of_eq ?_) this
      congr 1
      apply List.filter_congr
      intro f _
      simp only [Function.comp, decide_eq_decide]
      exact conv1_continent f)).1
    exact this
  obtain ⟨info, hi⟩ := fillMap_total hl []
  exact ⟨info, findMap_of hw.langs hf hd hi⟩

/-- C27 for packed files: pack disjoint rows that cover every IPv4 address (or, for an IPv6 data set, every proper
IPv6 address, one row reaching across the start of `::ffff:0:0/96`), dump the file, pack the dump: both files answer
every address of the family with the row's information and mask. -/
theorem C27_pack_dump_pack {enc : MetaData → Bytes} {now : Int} {ipd : IpData} (hok : RowsOK ipd) (hval : ValuesOK ipd)
    (hdis : DisjointRows (rowsOf ipd)) (hj : MetaRoundTrip enc dec (buildMeta now ipd.version ipd.fields))
    (hlen : ∀ row ∈ ipd.ips, row.cidr.ip.length = dumpLen ipd.version)
    (hcover : ∀ a, Walked ipd.version a → ∃ row ∈ ipd.ips, Covers row.cidr (addrNum a))
    (hcross : dumpLen ipd.version = 16 → ∃ row ∈ ipd.ips, Covers row.cidr (0xffff * 2 ^ 32 - 1) ∧
      Covers row.cidr (0xffff * 2 ^ 32))
    (hknown : ∃ f ∈ ipd.fields, ∃ p ∈ CommonFieldsMap, f = p.1 ∨ f = p.2) :
    ∃ bytes, pack enc now ipd = .ok bytes ∧ (bytes.length < 2 ^ 32 →
      ∃ q d, newQuerier dec bytes = .ok q ∧ (∀ fuel ≥ 2 ^ 128, Ipdb.dump fuel dec fmtDate bytes none = some (.ok d)) ∧
        ((∀ x ∈ d.ips, (joinByte 0x09 x.values).length < 65536) →
          MetaRoundTrip enc dec (buildMeta now d.version d.fields) →
          ∃ bytes', pack enc now d = .ok bytes' ∧ (bytes'.length < 2 ^ 32 →
            ∃ q', newQuerier dec bytes' = .ok q' ∧
              ∀ a row, Walked ipd.version a → row ∈ ipd.ips → Covers row.cidr (addrNum a) →
                q.Query a = .ok (infoOf ipd.fields row.values, maskFor row.cidr a) ∧
                q'.Query a = .ok (infoOf ipd.fields row.values, maskFor row.cidr a)))) := by
  obtain ⟨bytes, hp, ho⟩ := opens hok hj
  refine ⟨bytes, hp, fun hsize => ?_⟩
  obtain ⟨r, hr, hq, hw⟩ := ho hsize
  have hco := newReader_cacheOK hr
  have hdl := Written.dumpLen_eq hw fmtDate
  obtain ⟨hown, hcoh⟩ := reader_dumpLen hco fmtDate
  rw [hdl] at hown hcoh
  -- every walked address has a record whose network is the covering row
  have hfind : ∀ a, Walked ipd.version a → ∃ row ∈ ipd.ips, Covers row.cidr (addrNum a) ∧
      ∃ info, r.findMap a (gs "CN") = .ok (row.cidr, info) := by
    intro a ha
    obtain ⟨row, hrow, hcov⟩ := hcover a ha
    obtain ⟨info, hf⟩ := packed_find hw hok hval hdis ha.1 ha.supports hrow hcov
    refine ⟨row, hrow, hcov, info, ?_⟩
    have hlr := hlen row hrow
    have hb := (WFNet_bounds (hok.wf row hrow)).2.2
    have hmk : maskFor row.cidr a ≤ if (To4 a).isSome then 32 else 128 := by unfold maskFor; split <;> simp_all
    obtain ⟨e1, e2, e3, e4⟩ := C04_ip_net a ha.1 (maskFor row.cidr a) hmk
    have h3 : (if (To4 a).isSome then 4 else 16) = row.cidr.ip.length := by
      rw [hlr]
      have := ha.2
      rcases dumpLen_cases ipd.version with h | h <;> rw [h] at this ⊢ <;> simp_all
    have hpf : pfx row.cidr ≤ 8 * row.cidr.ip.length := by
      have := (hok.wf row hrow).1.2.2.1; rw [(hok.wf row hrow).1.2.1] at this; exact this
    have : IpNet a (maskFor row.cidr a) = row.cidr := by
      apply WFNet_eq e1 (hok.wf row hrow) (by rw [e3, h3]) _ e4 hcov
      rw [e2]
      unfold maskFor hostBits
      rw [← h3] at hpf ⊢
      split <;> simp_all <;> omega
    rw [hf, this]
  -- the walk never meets an address without a record
  have hsucc : ∃ d, ∀ fuel ≥ 2 ^ 128, Ipdb.dump fuel dec fmtDate bytes none = some (.ok d) := by
    obtain ⟨out, hout⟩ := C26_ipdb dec fmtDate bytes none
    have h1 := hout (2 ^ 128) (Nat.le_refl _)
    rw [dump_eq hr] at h1
    have hok' : ∃ d, out = .ok d := by
      unfold BuildIPData at h1
      simp only [] at h1
      cases hb : buildLoop (fun ip => r.findMap ip (gs "CN"))
          (Export.rowValues CommonFieldsMap (dumpFields CommonFieldsMap r.md.fields none) none) (2 ^ 128)
          (firstMarker (r.version fmtDate)) [] with
      | none => rw [hb] at h1; cases h1
      | some res =>
        rw [hb] at h1
        simp only [Option.map_some, Option.some.injEq] at h1
        have := buildLoop_succeeds (dumpLen_cases ipd.version) hown (P := Walked ipd.version)
          (row := Export.rowValues CommonFieldsMap (dumpFields CommonFieldsMap r.md.fields none) none)
          (fun a ha => by
            obtain ⟨row, _, _, info, hf⟩ := hfind a ha
            exact ⟨ha.inFam, row.cidr, info, _, hf, rfl⟩)
          (fun a c i last ha hf hlast hnot => by
            have hown' := hown a c i ha.inFam hf
            obtain ⟨hlo, hhi, last', hl', hll, hall, hnext⟩ := net_end hown'.1 hown'.2.1 (dumpLen_cases ipd.version)
            rw [hlast] at hl'
            injection hl' with hl'
            subst hl'
            obtain ⟨hnum, hlt⟩ := hnext hnot
            have hval : ValidIP (NextIP last) := by
              unfold ValidIP; rw [NextIP_length, hll]; exact dumpLen_cases _
            refine ⟨hval, ?_⟩
            rw [To4_isSome_iff hval, hnum]
            rcases dumpLen_cases ipd.version with h4 | h16
            · have hcov := hown'.2.2
              unfold Covers at hcov
              rw [h4] at hlo hlt ⊢
              unfold famLo at hlo
              unfold famEnd at hlt
              simp only [if_true] at hlo hlt
              constructor
              · intro _; rfl
              · intro _; omega
            · rw [h16]
              refine ⟨fun hm => ?_, fun h => by cases h⟩
              exfalso
              -- the next marker would be inside ::ffff:0:0/96
              obtain ⟨R, hR, hR1, hR2⟩ := hcross h16
              have hRw := hok.wf R hR
              -- a network that contains an address below the block and the block's first address contains the block
              have hRend : 0x10000 * 2 ^ 32 ≤ netEnd R.cidr := by
                have hb := (WFNet_bounds hRw).1
                unfold Covers at hR1 hR2
                have e : netEnd R.cidr = netLo R.cidr + 2 ^ hostBits R.cidr := rfl
                have hd : (2 : Nat) ^ 32 ∣ 0xffff * 2 ^ 32 := ⟨0xffff, by decide⟩
                rcases Nat.le_total (hostBits R.cidr) 32 with hle | hle
                · rcases laminar hb hd hle with h | h | h <;> omega
                · rcases laminar hd hb hle with h | h | h <;> omega
              have hcov := hown'.2.2
              obtain ⟨row, hrow, hrc, info, hf'⟩ := hfind a ha
              rw [hf] at hf'
              injection hf' with hf'
              have hc : c = row.cidr := (Prod.mk.inj hf').1
              -- row and R overlap at the number before the marker
              have hov : Overlap row.cidr R.cidr := by
                unfold Overlap
                unfold Covers at hR1 hR2 hcov
                rw [← hc]
                omega
              have hne : row.cidr ≠ R.cidr := by
                intro he
                rw [hc, he] at hm
                omega
              have hpw := List.pairwise_iff_getElem.mp hdis
              have hm1 : (row.cidr, row.values) ∈ rowsOf ipd := List.mem_map.mpr ⟨row, hrow, rfl⟩
              have hm2 : (R.cidr, R.values) ∈ rowsOf ipd := List.mem_map.mpr ⟨R, hR, rfl⟩
              obtain ⟨i, hi, hie⟩ := List.getElem_of_mem hm1
              obtain ⟨j, hj', hje⟩ := List.getElem_of_mem hm2
              rcases Nat.lt_trichotomy i j with hlt' | heq | hgt
              · exact hpw i j hi hj' hlt' (by rw [hie, hje]; exact hov)
              · subst heq
                rw [hie] at hje
                exact hne (Prod.mk.inj hje).1
              · exact hpw j i hj' hi hgt (by rw [hie, hje]; exact Overlap_comm.mp hov))
          (2 ^ 128) _ [] res (by
            have h := (firstMarker_spec (r.version fmtDate)).1
            refine ⟨h.1, ?_⟩
            rw [To4_isSome_iff h.1, (firstMarker_spec (r.version fmtDate)).2, hdl]
            unfold famLo
            rcases dumpLen_cases ipd.version with h | h <;> rw [h] <;> decide) hb
        obtain ⟨ips, rfl⟩ := this
        exact ⟨_, by rw [← h1]; rfl⟩
    obtain ⟨d, rfl⟩ := hok'
    exact ⟨d, hout⟩
  obtain ⟨d, hd⟩ := hsucc
  refine ⟨_, d, hq, hd, fun hsmall hjd => ?_⟩
  have hdd := hd (2 ^ 128) (Nat.le_refl _)
  have hb := hdd
  rw [dump_eq hr] at hb
  obtain ⟨hf1, hv1, _⟩ := build_ok hb
  have hone : (r.md.fields.filter (fun f => decide (f = FieldContinentCode))).length ≤ 1 := by
    rw [hw.fields_eq, covertFields_eq, List.filter_map, List.length_map]
    have := hval.continent
    unfold OneContinent at this
    refine Nat.le_trans (Nat.le_of_eq ?_) this
    congr 1
    apply List.filter_congr
    intro f _
    simp only [Function.comp, decide_eq_decide]
    exact conv1_continent f
  have hdne : d.fields ≠ [] := by
    rw [hf1]
    obtain ⟨f, hf, p, hp, hfp⟩ := hknown
    have hall : ∀ p ∈ CommonFieldsMap, conv1 p.1 = p.2 ∧ conv1 p.2 = p.2 := by decide +kernel
    have : p.1 ∈ ExtKeys CommonFieldsMap r.md.fields := by
      rw [mem_ExtKeys]
      refine ⟨p.2, ?_, hp⟩
      rw [hw.fields_eq, covertFields_eq, List.mem_map]
      refine ⟨f, hf, ?_⟩
      rcases hfp with h | h
      · rw [h]; exact (hall p hp).1
      · rw [h]; exact (hall p hp).2
    intro he
    have he' : ExtKeys CommonFieldsMap r.md.fields = [] := he
    rw [he'] at this; cases this
  have hall : ∀ x ∈ d.ips, hostBits x.cidr < 128 := by
    intro x hx
    obtain ⟨hxw, hxl, b, info, hbf, hbfind, _, _⟩ := (build_sound (by rw [hdl]; exact hown) (by rw [hdl]; exact hcoh) hb).2 x hx
    obtain ⟨hbw, hbl, _, _⟩ := findMap_ownNet hco hbf.1 hbfind
    have hwalk : Walked ipd.version b := by
      refine ⟨hbf.1, ?_⟩
      rw [hxl, hdl] at hbl
      cases hs : (To4 b).isSome <;> rw [hs] at hbl <;> simp_all
    obtain ⟨row, hrow, _, i', hf'⟩ := hfind b hwalk
    change r.findMap b (gs "CN") = _ at hbfind
    rw [hbfind] at hf'
    injection hf' with hf'
    rw [(Prod.mk.inj hf').1]
    exact hok.notAll row hrow
  obtain ⟨bytes', hp', hq'⟩ := C27_convert hr hone hdd hdne hall hsmall hjd
  refine ⟨bytes', hp', fun hs' => ?_⟩
  obtain ⟨q', hq1, hq2⟩ := hq' hs'
  refine ⟨q', hq1, fun a row ha hrow hcov => ?_⟩
  have e1 := hw.query_covered hok hval ha.1 ha.supports (rowOf_disjoint hok hdis hrow hcov)
  refine ⟨e1, ?_⟩
  have ha' : Walked d.version a := by
    refine ⟨ha.1, ?_⟩
    rw [ha.2, hv1, hdl]
  obtain ⟨info, mask, h1, h2⟩ := hq2 a ha'
  rw [e1] at h2
  rw [h1, h2]

end

/-! ### Concrete data sets -/

/-- Two halves of the IPv4 space. -/
def demo4 : IpData :=
  { fields := [gs "country", gs "continent", gs "unknown", gs "city"]
    version := { ipType := IpV4, count := 2, build := 0, version := gs "v", languages := [], extraInfo := [] }
    ips := [
      { cidr := ⟨[0, 0, 0, 0], [128, 0, 0, 0]⟩, values := [gs "中国", gs "亚洲", gs "x", gs "北京"] },
      { cidr := ⟨[128, 0, 0, 0], [128, 0, 0, 0]⟩, values := [gs "法国", gs "EU", gs "y", gs ""] }] }

/-- Two halves of the IPv6 space. -/
def demo6 : IpData :=
  { fields := [gs "country", gs "city"]
    version := { ipType := IpV6, count := 2, build := 0, version := gs "v", languages := [], extraInfo := [] }
    ips := [
      { cidr := ⟨List.replicate 16 0, 128 :: List.replicate 15 0⟩, values := [gs "中国", gs "北京"] },
      { cidr := ⟨128 :: List.replicate 15 0, 128 :: List.replicate 15 0⟩, values := [gs "法国", gs ""] }] }

/-- An IPv4 row covering everything and an IPv6 row. -/
def demoAll : IpData :=
  { fields := [gs "country", gs "city"]
    version := { ipType := IpAll, count := 2, build := 0, version := gs "v", languages := [], extraInfo := [] }
    ips := [
      { cidr := ⟨[0, 0, 0, 0], [0, 0, 0, 0]⟩, values := [gs "中国", gs "北京"] },
      { cidr := ⟨0x20 :: List.replicate 15 0, 0xe0 :: List.replicate 15 0⟩, values := [gs "法国", gs ""] }] }

/-- The hypotheses of C27 hold of `demo4`. -/
example : RowsOK demo4 ∧ ValuesOK demo4 ∧ DisjointRows (rowsOf demo4) ∧
    (∀ row ∈ demo4.ips, row.cidr.ip.length = dumpLen demo4.version) ∧
    (∀ a, Walked demo4.version a → ∃ row ∈ demo4.ips, Covers row.cidr (addrNum a)) ∧
    (∃ f ∈ demo4.fields, ∃ p ∈ CommonFieldsMap, f = p.1 ∨ f = p.2) := by
  refine ⟨by decide +kernel, by decide +kernel, by decide +kernel, by decide +kernel, fun a ha => ?_, by decide +kernel⟩
  have h := ha.inFam
  have e : dumpLen demo4.version = 4 := by decide +kernel
  rw [e] at h
  have h1 := h.2.1
  have h2 := h.2.2
  unfold famLo at h1
  unfold famEnd at h2
  simp only [if_true] at h1 h2
  have a1 : netLo (demo4.ips[0]'(by decide)).cidr = 0xffff * 2 ^ 32 ∧ netEnd (demo4.ips[0]'(by decide)).cidr = 0xffff * 2 ^ 32 + 2 ^ 31 := by
    decide +kernel
  have a2 : netLo (demo4.ips[1]'(by decide)).cidr = 0xffff * 2 ^ 32 + 2 ^ 31 ∧ netEnd (demo4.ips[1]'(by decide)).cidr = 0x10000 * 2 ^ 32 := by
    decide +kernel
  rcases Nat.lt_or_ge (addrNum a) (0xffff * 2 ^ 32 + 2 ^ 31) with h | h
  · exact ⟨_, List.getElem_mem (by decide : 0 < demo4.ips.length), by unfold Covers; rw [a1.1, a1.2]; omega⟩
  · exact ⟨_, List.getElem_mem (by decide : 1 < demo4.ips.length), by unfold Covers; rw [a2.1, a2.2]; omega⟩

/-- The hypotheses of C27 hold of `demo6`. -/
example : RowsOK demo6 ∧ ValuesOK demo6 ∧ DisjointRows (rowsOf demo6) ∧
    (∀ row ∈ demo6.ips, row.cidr.ip.length = dumpLen demo6.version) ∧
    (∀ a, Walked demo6.version a → ∃ row ∈ demo6.ips, Covers row.cidr (addrNum a)) ∧
    (∃ row ∈ demo6.ips, Covers row.cidr (0xffff * 2 ^ 32 - 1) ∧ Covers row.cidr (0xffff * 2 ^ 32)) ∧
    (∃ f ∈ demo6.fields, ∃ p ∈ CommonFieldsMap, f = p.1 ∨ f = p.2) := by
  refine ⟨by decide +kernel, by decide +kernel, by decide +kernel, by decide +kernel, fun a ha => ?_, by decide +kernel,
    by decide +kernel⟩
  have h2 := addrNum_lt ha.1
  have a1 : netLo (demo6.ips[0]'(by decide)).cidr = 0 ∧ netEnd (demo6.ips[0]'(by decide)).cidr = 2 ^ 127 := by
    decide +kernel
  have a2 : netLo (demo6.ips[1]'(by decide)).cidr = 2 ^ 127 ∧ netEnd (demo6.ips[1]'(by decide)).cidr = 2 ^ 128 := by
    decide +kernel
  rcases Nat.lt_or_ge (addrNum a) (2 ^ 127) with h | h
  · exact ⟨_, List.getElem_mem (by decide : 0 < demo6.ips.length), by unfold Covers; rw [a1.1, a1.2]; omega⟩
  · exact ⟨_, List.getElem_mem (by decide : 1 < demo6.ips.length), by unfold Covers; rw [a2.1, a2.2]; omega⟩

/-! ## C28 -/

/-- C28 fails: the dump of a database that is not IPv6-only never has a row for a proper IPv6 address, whatever the
lookup knows about it. -/
theorem C28_only_ipv4_dumped {dec : Bytes → Option MetaData} {fmtDate : Int → Str} {bytes : Bytes} {r : Reader}
    {fuel : Nat} {ept : Option Exporter} {d : IpData} (ho : newReaderFromBytes dec bytes = .ok r)
    (hv : r.md.IpType ≠ IpV6) (h : Ipdb.dump fuel dec fmtDate bytes ept = some (.ok d)) (a : IP) (ha : ValidIP a)
    (h6 : To4 a = none) : ∀ x ∈ d.ips, ¬ Covers x.cidr (addrNum a) := by
  obtain ⟨ht, _⟩ := C24_ipdb ho h
  have e : dumpLen (r.version fmtDate) = 4 := by
    unfold dumpLen VersionInfo.IsIpV6 Reader.version
    rw [if_neg (by simpa using hv)]
  rw [e] at ht
  intro x hx hc
  have := ((tiles_covers ht).2 (addrNum a)).mp ⟨x.cidr, List.mem_map_of_mem hx, hc⟩
  have h4 : InFam 4 a := ⟨ha, this.1, this.2⟩
  rw [InFam4_iff ha, h6] at h4
  cases h4

/-- C28, a concrete failure: the packed file answers `2000::1`, its dump succeeds, and no dumped row covers `2000::1`. -/
theorem C28_negation : ∃ bytes q d, pack encMeta 0 demoAll = .ok bytes ∧ newQuerier decMeta bytes = .ok q ∧
    q.Query (0x20 :: (List.replicate 14 0 ++ [1])) = .ok ({ country := gs "法国" }, 3) ∧
    (∀ fuel ≥ 1, Ipdb.dump fuel decMeta (fun _ => []) bytes none = some (.ok d)) ∧
    ∀ x ∈ d.ips, ¬ Covers x.cidr (addrNum (0x20 :: (List.replicate 14 0 ++ [1]))) := by
  obtain ⟨bytes, h1, h2⟩ := opens (enc := encMeta) (dec := decMeta) (now := 0) (ipd := demoAll)
    (by decide +kernel) (fun _ _ _ _ => dec_encMeta _)
  obtain ⟨r, h3, h4, hw⟩ := h2 (size_of_packed (by decide +kernel) h1)
  obtain ⟨info, hf⟩ := packed_find hw (by decide +kernel) (by decide +kernel) (by decide +kernel) (a := IPv4zero)
    (by decide +kernel) (by decide +kernel) (row := demoAll.ips[0]'(by decide)) (List.getElem_mem _) (by decide +kernel)
  have hn : IpNet IPv4zero (maskFor (demoAll.ips[0]'(by decide)).cidr IPv4zero) = ⟨[0, 0, 0, 0], [0, 0, 0, 0]⟩ := by
    decide +kernel
  rw [hn] at hf
  have hv : r.md.IpType ≠ IpV6 := by
    obtain ⟨N, S, e⟩ := hw.md
    rw [e]
    change (buildMeta 0 demoAll.version demoAll.fields).IpType ≠ IpV6
    decide +kernel
  have hm : firstMarker (r.version (fun _ => [])) = IPv4zero := by
    unfold firstMarker VersionInfo.IsIpV6 Reader.version
    rw [if_neg (by simpa using hv)]
  have hd : ∀ fuel, Ipdb.dump (fuel + 1) decMeta (fun _ => []) bytes none =
      some (.ok ⟨ExtKeys CommonFieldsMap r.md.fields, r.version (fun _ => []),
        [⟨⟨[0, 0, 0, 0], [0, 0, 0, 0]⟩, plainRow (ExtKeys CommonFieldsMap r.md.fields) info⟩]⟩) := by
    intro fuel
    rw [dump_eq h3]
    have hl : LastIP ⟨[0, 0, 0, 0], [0, 0, 0, 0]⟩ = .ok [255, 255, 255, 255] := by decide +kernel
    have hall : IsAllMask [255, 255, 255, 255] = true := by decide +kernel
    unfold BuildIPData
    simp only [hm, buildLoop, hf, rowValues_none, hl, hall, if_true]
    rfl
  refine ⟨bytes, _, ⟨ExtKeys CommonFieldsMap r.md.fields, r.version (fun _ => []),
    [⟨⟨[0, 0, 0, 0], [0, 0, 0, 0]⟩, plainRow (ExtKeys CommonFieldsMap r.md.fields) info⟩]⟩, h1, h4, ?_,
    fun fuel hf => ?_, ?_⟩
  · rw [hw.query_covered (m := ((demoAll.ips[1]'(by decide)).cidr, [gs "法国", gs ""])) (by decide +kernel)
      (by decide +kernel) (by decide +kernel) (by decide +kernel) (by decide +kernel)]
    decide +kernel
  · obtain ⟨k, rfl⟩ := Nat.exists_eq_add_of_le hf
    rw [Nat.add_comm]; exact hd k
  · exact C28_only_ipv4_dumped h3 hv (hd 0) _ (by decide +kernel) (by decide +kernel)

end Uip.Dump
