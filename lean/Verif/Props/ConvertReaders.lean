import Verif.Spec.ConvertReaders
import Verif.Props.Dump
import Verif.Props.AnyJson
import Verif.Props.AnyDump
/-!
# Property C128: a converted ipdb file and the three readers
-/
namespace Uip.Ipdb
open Uip Uip.Spec Uip.Json Uip.Spec.JsonText Uip.Dump Uip.Export

/-- Values of a filled map are values of the record. -/
theorem fillMap_noTab {fs vs : List Str} {m0 m : GoMap Str} (hm : fillMap fs vs m0 = .ok m)
    (hvs : ∀ v ∈ vs, (0x09 : UInt8) ∉ v) (h0 : ∀ k v, mapGet m0 k = some v → (0x09 : UInt8) ∉ v) :
    ∀ k v, mapGet m k = some v → (0x09 : UInt8) ∉ v := by
  induction fs generalizing vs m0 with
  | nil => unfold fillMap at hm; cases hm; exact h0
  | cons g fs ih =>
    cases vs with
    | nil => unfold fillMap at hm; cases hm
    | cons w vs =>
      unfold fillMap at hm
      refine ih hm (fun v hv => hvs v (by simp [hv])) ?_
      intro k v hk
      unfold mapSet mapGet at hk
      split at hk
      · cases hk; exact hvs _ (by simp)
      · exact h0 k v hk

variable {dec : Bytes → Option MetaData} {r : Reader} {file : Bytes} {d : IpData} {fuel : Nat} {fmtDate : Int → Str}

/-- What each row of a dump is. -/
theorem dump_rows (ho : newReaderFromBytes dec file = .ok r)
    (h : Ipdb.dump fuel dec fmtDate file none = some (.ok d)) : ∀ x ∈ d.ips, ∃ info values body off,
      r.decodeInfo body off = .ok values ∧ fillMap r.md.fields values [] = .ok info ∧ x.values = plainRow d.fields info := by
  intro x hx
  have hd := h
  rw [dump_eq ho] at hd
  obtain ⟨h1, h2⟩ := reader_dumpLen (newReader_cacheOK ho) fmtDate
  obtain ⟨_, _, b, info, _, hfb, hr, _⟩ := (build_sound h1 h2 hd).2 x hx
  obtain ⟨off, n, body, m, values, k1, k2, k3, k4, k5⟩ := findMap_ok hfb
  rw [rowValues_none] at hr
  exact ⟨info, values, body, off, k3, k4, by injection hr with hr; exact hr.symm⟩

/-- A dump is a table that can be packed. -/
theorem dump_packable (ho : newReaderFromBytes dec file = .ok r)
    (hone : (r.md.fields.filter (fun f => decide (f = FieldContinentCode))).length ≤ 1)
    (h : Ipdb.dump fuel dec fmtDate file none = some (.ok d)) (hne : d.fields ≠ [])
    (hall : ∀ x ∈ d.ips, hostBits x.cidr < 128) (hsmall : ∀ x ∈ d.ips, (joinByte 0x09 x.values).length < 65536) :
    RowsOK d ∧ ValuesOK d ∧ DisjointRows (rowsOf d) := by
  have hd := h
  rw [dump_eq ho] at hd
  obtain ⟨hfields, hver, _⟩ := build_ok hd
  have hfields' : d.fields = ExtKeys CommonFieldsMap r.md.fields := hfields
  obtain ⟨htiles, hwf⟩ := C24_ipdb ho h
  have hcont := newReader_continent ho
  refine ⟨⟨hne, fun x hx => (hwf x hx).1, hall, fun x hx => ?_, hsmall⟩, ⟨fun x hx v hv => ?_, ?_⟩, ?_⟩
  · obtain ⟨info, values, body, off, _, _, hv⟩ := dump_rows ho h x hx
    rw [hv]; simp [plainRow]
  · obtain ⟨info, values, body, off, h1, h2, hvv⟩ := dump_rows ho h x hx
    have hnt := (decodeInfo_values h1 hcont hone).2.1
    rw [hvv] at hv
    unfold plainRow at hv
    obtain ⟨f, _, rfl⟩ := List.mem_map.mp hv
    cases e1 : mapGet CommonFieldsMap f with
    | none => simp
    | some k =>
      simp only []
      cases e2 : mapGet info k with
      | none => simp
      | some w => exact fillMap_noTab h2 hnt (by intro k v hk; cases hk) _ _ e2
  · rw [hfields']; exact ExtKeys_oneContinent hone
  · unfold DisjointRows rowsOf
    rw [List.pairwise_map]
    exact tiles_disjoint htiles

/-- The continent of a dumped row is no code. -/
theorem dump_no_code (ho : newReaderFromBytes dec file = .ok r)
    (hone : (r.md.fields.filter (fun f => decide (f = FieldContinentCode))).length ≤ 1)
    (h : Ipdb.dump fuel dec fmtDate file none = some (.ok d)) {x : IpRaw} (hx : x ∈ d.ips) :
    attr continentNames d.fields x.values ∉ continentTable.map (·.1) := by
  have hd := h
  rw [dump_eq ho] at hd
  have hfields' : d.fields = ExtKeys CommonFieldsMap r.md.fields := (build_ok hd).1
  obtain ⟨info, values, body, off, h1, h2, hvv⟩ := dump_rows ho h x hx
  have hs := (decodeInfo_values h1 (newReader_continent ho) hone).2.2
  have e7 := attr_dumped h2 (names := continentNames) (ext := fContinent) (k := FieldContinentCode) (by decide +kernel) (by decide +kernel) (by decide +kernel)
  rw [hvv, hfields', e7]
  intro hin
  have key : ∀ c ∈ continentTable.map (·.1), spellContinent c ≠ c := by decide +kernel
  exact key _ hin hs

/-- The fields of a dump are texts. -/
theorem dump_field_texts (ho : newReaderFromBytes dec file = .ok r)
    (h : Ipdb.dump fuel dec fmtDate file none = some (.ok d)) : ∀ f ∈ d.fields, Json.IsText f := by
  have hd := h
  rw [dump_eq ho] at hd
  have hfields' : d.fields = ExtKeys CommonFieldsMap r.md.fields := (build_ok hd).1
  intro f hf
  rw [hfields'] at hf
  unfold ExtKeys at hf
  obtain ⟨v, _, hf⟩ := List.mem_flatMap.mp hf
  obtain ⟨p, hp, rfl⟩ := List.mem_map.mp hf
  have hp := (List.mem_filter.mp hp).1
  have key : ∀ q ∈ CommonFieldsMap, Json.IsText q.1 := by
    intro q hq
    simp only [CommonFieldsMap, List.mem_cons, List.not_mem_nil, or_false] at hq
    rcases hq with rfl | rfl | rfl | rfl | rfl | rfl | rfl | rfl | rfl | rfl | rfl | rfl <;> exact ⟨_, rfl⟩
  exact key p hp

/-- **C128.** Dump any accepted ipdb file, pack the dump, and open the new file with the Go, the Java and the Rust reader: on every
address of the dumped family, Go answers what it answered on the old file, Java the same but for the line, Rust the same but for the
continent, which is empty. -/
theorem C128_readers {decJ decR : Bytes → Option MetaData} {utf8J utf8R : Bytes → Str} {now : Int} {new : Bytes}
    (ho : newReaderFromBytes unmarshalMeta file = .ok r)
    (hone : (r.md.fields.filter fun f => decide (f = gs "continent_code")).length ≤ 1)
    (h : Ipdb.dump fuel unmarshalMeta fmtDate file none = some (.ok d)) (hp : Packable d)
    (hJ : ReadsOrdinary decJ) (hR : ReadsOrdinary decR) (huJ : KeepsTexts utf8J) (huR : KeepsTexts utf8R) (hnow : Fits32 now)
    (nilFields nilExtra : Bool) (hn : pack (marshalMeta nilFields nilExtra) now d = .ok new) (hl : new.length < 2 ^ 31) (ips : List Bytes) :
    ∃ g j q, newQuerier unmarshalMeta new = .ok g ∧ Java.create decJ utf8J ips new = .ok j ∧ Rust.Reader decR new = .ok q ∧
      ∀ a, Walked d.version a → TakesLen d.version a → ∃ x ∈ d.ips, Covers x.cidr (addrNum a) ∧
        ∃ info mask ja, Querier.Query ⟨r, []⟩ a = .ok (info, mask) ∧ g.Query a = .ok (info, mask) ∧
          Java.query utf8J j a = .ok ja ∧ javaTexts ja = { info with line := attr (asnNames ++ lineNames) d.fields x.values } ∧
          Rust.query utf8R q a = .ok { info with continent := [] } := by
  obtain ⟨hok, hval, hdis⟩ := dump_packable ho hone h hp.fields hp.notAll hp.small
  have hft := dump_field_texts ho h
  obtain ⟨g, j, e1, e2, e3⟩ := C113_java hJ nilFields nilExtra hok hval hp.values hnow hp.fields hp.version hp.extra hft huJ hn hl ips
  obtain ⟨g', q, e1', e4, e5⟩ := C113_rust hR nilFields nilExtra hok hval hp.values hnow hp.fields hp.version hp.extra hft huR hn hl
  rw [e1] at e1'
  have e := Res.ok.inj e1'
  subst e
  obtain ⟨new', hn', hconv⟩ := C27_convert (enc := marshalMeta nilFields nilExtra) (now := now) ho hone h hp.fields hp.notAll hp.small
    (C101_round_trip nilFields nilExtra (by unfold Fits32 at hnow; unfold IsInt64; omega) hp.version hp.extra hft)
  rw [hn] at hn'
  have e := Res.ok.inj hn'
  subst e
  obtain ⟨g', e1', hq⟩ := hconv (by omega)
  rw [e1] at e1'
  have e := Res.ok.inj e1'
  subst e
  refine ⟨g, j, q, e1, e2, e4, fun a ha ht => ?_⟩
  have hfam := ha.inFam
  have hd := h
  rw [dump_eq ho] at hd
  obtain ⟨_, hver, _⟩ := build_ok hd
  rw [hver] at hfam
  obtain ⟨n, hn, hcv⟩ := ((tiles_covers (C24_ipdb ho h).1).2 (addrNum a)).mpr hfam.2
  obtain ⟨x, hx, rfl⟩ := List.mem_map.mp hn
  have hrow := rowOf_disjoint hok hdis hx hcv
  obtain ⟨go, mask, ja, j1, j2, j3⟩ := e3 a _ ht ha.supports hrow
  obtain ⟨go', mask', ru, r1, r2, r3⟩ := e5 a _ ht ha.supports hrow
  obtain ⟨info, mask0, q1, q2⟩ := hq a ha
  rw [q1] at j1 r1
  have ej := Res.ok.inj j1
  have er := Res.ok.inj r1
  cases ej
  cases er
  rw [if_neg (dump_no_code ho hone h hx)] at r3
  subst r3
  exact ⟨x, hx, hcv, _, _, ja, q2, q1, j2, j3, r2⟩

/-! ## Not vacuous -/

/-- The file in two languages of C127 with metadata as Go writes it. -/
def goLangFile : Bytes := intToBE32 (marshalMeta false false fullLang).length ++ marshalMeta false false fullLang ++ fullLangBody

/-- Its dump. -/
def goLangDump : IpData := { fullLangDump with version := ⟨2, 1, 0, gs "ipip.net-", [gs "EN", gs "CN"], []⟩ }

theorem goLang_dump : Ipdb.dump 9 unmarshalMeta (fun _ => []) goLangFile none = some (.ok goLangDump) := by decide +kernel

theorem goLang_reader : ∃ r, newReaderFromBytes unmarshalMeta goLangFile = .ok r ∧ r.md = { fullLang with languages := [(gs "EN", 0), (gs "CN", 3)] } := by
  have h : (match newReaderFromBytes unmarshalMeta goLangFile with | .ok r => decide (r.md = { fullLang with languages := [(gs "EN", 0), (gs "CN", 3)] }) | _ => false) = true := by
    decide +kernel
  split at h
  · rename_i r hr; exact ⟨r, hr, of_decide_eq_true h⟩
  · cases h

theorem goLang_new : ∃ new, pack (marshalMeta false false) 0 goLangDump = .ok new ∧ new.length < 2 ^ 31 := by
  have h : (match pack (marshalMeta false false) 0 goLangDump with | .ok b => decide (b.length < 2 ^ 31) | _ => false) = true := by
    decide +kernel
  split at h
  · rename_i b hb; exact ⟨b, hb, of_decide_eq_true h⟩
  · cases h

theorem goLangDump_packable : Packable goLangDump := by
  refine ⟨by decide, by decide +kernel, by decide +kernel, ?_, ⟨_, rfl⟩, fun s hs => nomatch hs⟩
  intro x hx v hv
  simp only [goLangDump, fullLangDump, List.mem_cons, List.not_mem_nil, or_false] at hx
  rcases hx with rfl | rfl <;> simp only [List.mem_cons, List.not_mem_nil, or_false] at hv <;>
    rcases hv with rfl | rfl | rfl <;> exact ⟨_, rfl⟩

/-- The file whose Chinese columns are behind the English ones, converted: the Rust reader now answers in Chinese, and has no continent. -/
example {decJ decR : Bytes → Option MetaData} (hJ : ReadsOrdinary decJ) (hR : ReadsOrdinary decR) :
    ∃ r new g q info, newReaderFromBytes unmarshalMeta goLangFile = .ok r ∧ pack (marshalMeta false false) 0 goLangDump = .ok new ∧
      newQuerier unmarshalMeta new = .ok g ∧ Rust.Reader decR new = .ok q ∧
      Querier.Query ⟨r, []⟩ (List.replicate 16 255) = .ok (info, 1) ∧ info.country = gs "美国" ∧ info.continent = gs "北美洲" ∧
      Rust.query id q (List.replicate 16 255) = .ok { info with continent := [] } := by
  obtain ⟨r, hr, hm⟩ := goLang_reader
  obtain ⟨new, hn, hl⟩ := goLang_new
  obtain ⟨g, j, q, e1, e2, e3, e4⟩ := C128_readers (utf8J := id) (utf8R := id) hr (by rw [hm]; decide +kernel) goLang_dump
    goLangDump_packable hJ hR (fun _ => rfl) (fun _ => rfl) (now := 0) (by unfold Fits32; omega) false false hn hl []
  obtain ⟨x, hx, hc, info, mask, ja, k1, k2, k3, k4, k5⟩ := e4 (List.replicate 16 255) ⟨.inr rfl, by decide +kernel⟩ (by decide)
  have h : (match newReaderFromBytes unmarshalMeta goLangFile with
      | .ok r => (match Querier.Query ⟨r, []⟩ (List.replicate 16 255) with
        | .ok (i, m) => decide (m = 1 ∧ i.country = gs "美国" ∧ i.continent = gs "北美洲") | _ => false)
      | _ => false) = true := by decide +kernel
  rw [hr] at h
  simp only [k1] at h
  obtain ⟨h1, h2, h3⟩ := of_decide_eq_true h
  subst h1
  exact ⟨r, new, g, q, info, hr, hn, e1, e3, k1, h2, h3, k5⟩

end Uip.Ipdb
