import Verif.Proof.Json.Texts
import Verif.Props.Json
import Verif.Props.EndToEnd6
import Verif.Props.VersionEnd
import Verif.Props.ConverterExample
/-!
# Property C110: conversions with Go's own JSON

C64, C89, C95, C96 suppose that the metadata of the output survives being written and read.  With `encoding/json`
(`Model/GoJson.lean`) in place of the two parameters that follows: every text that comes out of a JSON document is UTF-8, and
UTF-8 survives.
-/
namespace Uip.Program
open Uip Uip.Spec Uip.Json
open Uip.Export (sevenFields)

/-- The program uses `encoding/json`; its clock fits 64 bits and its dates are texts. -/
structure GoWorld (w : World) : Prop where
  encMeta : ∀ m, ∃ nilFields nilExtra, w.encMeta m = marshalMeta nilFields nilExtra m
  decMeta : w.decMeta = unmarshalMeta
  decVersion : w.decVersion = unmarshalVersion
  now : IsInt64 w.now
  day : IsText w.day
  date : ∀ n, IsText (w.fmtDate n)

/-- The metadata written for these texts is the metadata read. -/
theorem goMeta {w : World} (hw : GoWorld w) (v : VersionInfo) (fields : List Str) :
    Ipdb.MetaRoundTrip w.encMeta w.decMeta (Ipdb.buildMeta w.now v fields) ↔
      IsText v.version ∧ (∀ s ∈ v.extraInfo, IsText s) ∧ ∀ f ∈ fields, IsText f := by
  constructor
  · intro h
    obtain ⟨nf, ne, e⟩ := hw.encMeta { Ipdb.buildMeta w.now v fields with nodeCount := (0 : Nat), totalSize := (0 : Nat) }
    have h0 := h 0 0 (by omega) (by omega)
    rw [e, hw.decMeta] at h0
    rw [← C101_round_trip_iff nf ne hw.now v fields]
    intro N S hN hS
    have hd : ∀ N S : Nat, N < 2 ^ 32 → S < 2 ^ 32 → unmarshalMeta (marshalMeta nf ne { Ipdb.buildMeta w.now v fields with nodeCount := N, totalSize := S }) = some
        { Ipdb.buildMeta w.now v fields with
            nodeCount := N, totalSize := S, languages := [(repair (gs "CN"), 0)], fields := (Ipdb.covertFields fields).map repair,
            version := repair v.version, extra := v.extraInfo.map repair } := fun N S hN hS =>
      C101_decoded nf ne { Ipdb.buildMeta w.now v fields with nodeCount := N, totalSize := S }
        (lang := gs "CN") (n := 0) hw.now
        (by show Ipdb.ipVersion v < _; unfold Ipdb.ipVersion; split; omega; split <;> omega)
        (by unfold IsInt64; simp only []; omega) (by unfold IsInt64; simp only []; omega) rfl (by decide)
    rw [hd 0 0 (by omega) (by omega)] at h0
    have h0 := Option.some.inj h0
    rw [hd N S hN hS]
    have e1 := congrArg Ipdb.MetaData.fields h0
    have e2 := congrArg Ipdb.MetaData.version h0
    have e3 := congrArg Ipdb.MetaData.extra h0
    have e4 := congrArg Ipdb.MetaData.languages h0
    simp only [] at e1 e2 e3 e4
    rw [e1, e2, e3, e4]
  · intro h N S hN hS
    obtain ⟨nf, ne, e⟩ := hw.encMeta { Ipdb.buildMeta w.now v fields with nodeCount := N, totalSize := S }
    rw [e, hw.decMeta]
    exact (C101_round_trip_iff nf ne hw.now v fields).mpr h N S hN hS

theorem reader_texts {w : World} (hw : GoWorld w) {b : Bytes} {r : Ipdb.Reader} (h : Ipdb.newReaderFromBytes w.decMeta b = .ok r) :
    IsText (r.version w.fmtDate).version ∧ ∀ s ∈ (r.version w.fmtDate).extraInfo, IsText s := by
  obtain ⟨x, hx⟩ : ∃ x, w.decMeta x = some r.md := by
    unfold Ipdb.newReaderFromBytes at h
    simp only [] at h
    split at h
    · cases h
    split at h
    · cases h
    split at h
    · cases h
    rename_i m hm
    split at h
    · cases h
    split at h
    · cases h
    split at h
    · simp only [Res.bind_eq_ok] at h
      obtain ⟨node, _, c, _, h⟩ := h
      cases h
      exact ⟨_, hm⟩
    · cases h
      exact ⟨_, hm⟩
  rw [hw.decMeta] at hx
  obtain ⟨_, h2, h3, _⟩ := unmarshalMeta_texts hx
  refine ⟨?_, h3⟩
  unfold Ipdb.Reader.version
  simp only []
  split
  · exact isText_append (isText_gs _) (hw.date _)
  · exact h2

/-- The type of an `.awdb` file, the only text of it that becomes part of a version, is UTF-8. -/
def TypeText (fs : Fs) (file : Str) : Prop :=
  pathExt file = gs ".awdb" → ∀ b r, fs file = some b → Awdb.FromBytes b = .ok r → IsText r.md.databaseType

theorem dumped_texts {w : World} (hw : GoWorld w) {fuel : Nat} {fs : Fs} {a : Args} {cap : Nat → Nat} {D : IpData}
    (hin : Dumps w fuel fs a cap D) (ht : TypeText fs a.input) : IsText D.version.version ∧ ∀ s ∈ D.version.extraInfo, IsText s := by
  obtain ⟨b, create, h1, h2, h3⟩ := hin
  have through : ∀ {c : Nat → Nat} {o : Option (Res IpData)}, withSlices c o = some (.ok (dumped cap D)) →
      ∃ D', o = some (.ok D') ∧ D'.version = D.version := by
    intro c o h
    unfold withSlices at h
    obtain ⟨y, h6, h7⟩ := Option.map_eq_some_iff.mp h
    obtain ⟨D', rfl, h8⟩ := Res.bind_eq_ok.mp h7
    exact ⟨D', h6, congrArg HData.version (Res.ok.inj h8)⟩
  unfold converterFormats plainInit memipInit ipdbInit awdbInit at h2
  simp only [Registry.RegisterDumpFormat, Registry.RegisterQueryFormat, Registry.RegisterPackFormat,
    Registry.GetDumpFormat, mapGet_mapSet] at h2
  split at h2
  · cases h2
    obtain ⟨D', e1, e2⟩ := through h3
    rw [← e2]
    have e1 := Option.some.inj e1
    unfold Plain.dump at e1
    obtain ⟨t, e3, e4⟩ := Res.bind_eq_ok.mp e1
    have key : ∀ v, t.version = some v → ∃ x, w.decVersion x = some (some v) := by
      intro v hv
      unfold Plain.newDumper Plain.readHeader at e3
      split at e3
      · cases e3; cases hv
      · cases e3; cases hv
      · obtain ⟨x, _, e3⟩ := Res.bind_eq_ok.mp e3
        split at e3
        · cases e3
        · rename_i v' hd
          split at e3
          · cases e3
            simp only [] at hv
            subst hv
            exact ⟨x, hd⟩
          · obtain ⟨y, _, e3⟩ := Res.bind_eq_ok.mp e3
            split at e3
            · cases e3
            · cases e3
              simp only [] at hv
              cases hv
              exact ⟨x, hd⟩
    unfold Plain.Traversal.Dump at e4
    simp only [] at e4
    split at e4
    · cases e4
    · rename_i v hv
      obtain ⟨ips, _, e4⟩ := Res.bind_eq_ok.mp e4
      cases e4
      obtain ⟨x, hx⟩ := key v hv
      rw [hw.decVersion] at hx
      obtain ⟨k1, _, k2⟩ := unmarshalVersion_texts hx
      exact ⟨k1, k2⟩
  · split at h2
    · cases h2
      obtain ⟨D', e1, e2⟩ := through h3
      rw [← e2]
      have e1 := Option.some.inj e1
      unfold Memip.dump at e1
      obtain ⟨rows, _, e1⟩ := Res.bind_eq_ok.mp e1
      obtain ⟨ips, _, e1⟩ := Res.bind_eq_ok.mp e1
      obtain ⟨t, _, e1⟩ := Res.bind_eq_ok.mp e1
      cases e1
      exact ⟨hw.day, fun s hs => by cases hs⟩
    · split at h2
      · cases h2
        obtain ⟨D', e1, e2⟩ := through h3
        rw [← e2]
        unfold Ipdb.dump at e1
        split at e1
        · cases e1
        · cases e1
        · rename_i r hr
          obtain ⟨_, hv, _⟩ := Dump.build_ok e1
          rw [hv]
          exact reader_texts hw hr
      · split at h2
        · rename_i hext
          cases h2
          obtain ⟨D', e1, e2⟩ := through h3
          rw [← e2]
          unfold Awdb.dump at e1
          split at e1
          · cases e1
          · cases e1
          · rename_i r hr
            obtain ⟨_, hv, _⟩ := Dump.build_ok e1
            rw [hv]
            unfold Awdb.open_ at hr
            obtain ⟨r', k1, k2⟩ := Res.bind_eq_ok.mp hr
            obtain ⟨_, _, k2⟩ := Res.bind_eq_ok.mp k2
            cases k2
            exact ⟨isText_append (isText_gs _) (ht hext.symm b _ h1 k1), fun s hs => by cases hs⟩
        · cases h2

/-! ## The property -/

/-- **C110.** Whatever file the converter reads (of an `.awdb` file the type must be UTF-8): the metadata of its `.ipdb` output
survives being written and read exactly if the names of its fields are UTF-8. -/
theorem C110_survives {w : World} (hw : GoWorld w) (fuel : Nat) (fs : Fs) (a : Args) (cap : Nat → Nat) (D : IpData)
    (hin : Dumps w fuel fs a cap D) (ht : TypeText fs a.input) :
    Ipdb.MetaRoundTrip w.encMeta w.decMeta (Ipdb.buildMeta w.now D.version (addField D.fields fDistrict)) ↔ ∀ f ∈ D.fields, IsText f := by
  obtain ⟨h1, h2⟩ := dumped_texts hw hin ht
  rw [goMeta hw]
  constructor
  · rintro ⟨_, _, h⟩ f hf
    refine h f ?_
    unfold addField
    split
    · exact hf
    · exact List.mem_append_left _ hf
  · intro h
    refine ⟨h1, h2, fun f hf => ?_⟩
    unfold addField at hf
    split at hf
    · exact h f hf
    · rcases List.mem_append.mp hf with hf | hf
      · exact h f hf
      · rw [List.mem_singleton.mp hf]
        exact isText_gs _

/-- **C110 (tables).** C64 without an assumption on the JSON library. -/
theorem C110_convert {w : World} (hw : GoWorld w) (fuel : Nat) (orders : Nat → List Str) (canCreate : Str → Bool) (fs : Fs) (a : Args)
    (cap : Nat → Nat) (D : IpData) (hin : Dumps w fuel fs a cap D) (ht : Table D) (hline : a.line = [])
    (hord : CarrierOrders NormalizedMap D orders)
    (ho : (0x2C : UInt8) ∉ a.output) (he : pathExt a.output = gs ".ipdb") (hcc : canCreate a.output = true)
    (htype : TypeText fs a.input) (hnames : ∀ f ∈ D.fields, IsText f) :
    ∃ fs' b, converter w fuel orders canCreate fs a = some (fs', .ok ()) ∧
      fs' a.output = some b ∧ (∀ n ≠ a.output, fs' n = fs n) ∧
      (b.length < 2 ^ 32 → ∃ q, NewDb w (serverFormats w fuel) fs' a.output = .ok q ∧
        (∀ ip x, ValidIP ip → Supports D.version ip → x ∈ D.ips → Covers x.cidr (addrNum ip) →
          ∃ x' n, Settled D x x' ∧ Covers n (addrNum ip) ∧ OneRecord D n x'.values ∧
            q.query ip = .ok (converted D x'.values, maskFor n ip)) ∧
        (∀ ip, (¬ ValidIP ip ∨ ¬ Supports D.version ip ∨ ∀ x ∈ D.ips, ¬ Covers x.cidr (addrNum ip)) →
          q.query ip = .err .databaseError)) :=
  C64_convert w fuel orders canCreate fs a cap D hin ht hline hord ho he hcc
    ((C110_survives hw fuel fs a cap D hin htype).mpr hnames)

theorem seven_texts : ∀ f ∈ sevenFields, IsText f := by
  intro f hf
  rw [← repair_eq_iff]
  revert f
  decide +kernel

/-- **C110 (.ipdb to .ipdb).** C95 without an assumption on the JSON library. -/
theorem C110_ipdb {w : World} (hw : GoWorld w) (fuel : Nat) (hfuel : fuel ≥ 2 ^ 128) (orders : Nat → List Str) (canCreate : Str → Bool)
    (fs : Fs) (a : Args) (Q : Ipdb.Querier)
    (hin : NewDb w (converterFormats w fuel) fs a.input = .ok (.ipdb Q)) (hext : pathExt a.input = gs ".ipdb")
    (hcols : 2 ≤ Q.r.md.fields.length)
    (hall : ∀ ip, Family w (.ipdb Q) ip → ∃ i, Says (.ipdb Q) ip i)
    (hcross : (OpenDb.versionInfo w (.ipdb Q)).IsIpV6 = true → ∃ i m, (OpenDb.ipdb Q).query belowMapped = .ok (i, m) ∧ m ≤ 95)
    (hrule : a.rule = gs "default") (hline : a.line = [])
    (hplain : ∀ ip i, Family w (.ipdb Q) ip → Says (.ipdb Q) ip i → Plainly i)
    (huni : (OpenDb.versionInfo w (.ipdb Q)).IsIpV6 = true → ∃ ip ip' i i', Family w (.ipdb Q) ip ∧ Family w (.ipdb Q) ip' ∧
      Says (.ipdb Q) ip i ∧ Says (.ipdb Q) ip' i' ∧ i.country ≠ i'.country)
    (hord : AnswerOrders (fun i => ∃ ip, Family w (.ipdb Q) ip ∧ Says (.ipdb Q) ip i) orders)
    (ho : (0x2C : UInt8) ∉ a.output) (he : pathExt a.output = gs ".ipdb") (hcc : canCreate a.output = true) :
    ∃ fs' b, converter w fuel orders canCreate fs a = some (fs', .ok ()) ∧
      fs' a.output = some b ∧ (∀ n ≠ a.output, fs' n = fs n) ∧
      (b.length < 2 ^ 32 → ∃ q, NewDb w (serverFormats w fuel) fs' a.output = .ok q ∧
        (∀ ip i, Family w (.ipdb Q) ip → Says (.ipdb Q) ip i → ∃ o n, q.query ip = .ok (o, maskFor n ip) ∧
          Covers n (addrNum ip) ∧ Finished (fun i => ∃ ip, Family w (.ipdb Q) ip ∧ Says (.ipdb Q) ip i) i o ∧
          ∀ ip', Family w (.ipdb Q) ip' → Covers n (addrNum ip') → ∃ i', Says (.ipdb Q) ip' i' ∧
            Finished (fun i => ∃ ip, Family w (.ipdb Q) ip ∧ Says (.ipdb Q) ip i) i' o) ∧
        (∀ ip, ¬ Family w (.ipdb Q) ip → q.query ip = .err .databaseError)) := by
  refine C95_ipdb w fuel hfuel orders canCreate fs a Q hin hext hcols hall hcross hrule hline hplain huni hord ho he hcc ?_
  obtain ⟨bytes, r, Q', _, hr, hq, hQr, _⟩ := open_ipdb hext hin
  cases hq
  obtain ⟨h1, h2⟩ := reader_texts hw hr
  rw [goMeta hw]
  have hv : OpenDb.versionInfo w (.ipdb Q) = r.version w.fmtDate := by
    show Q.r.version w.fmtDate = _; rw [hQr]
  rw [hv]
  exact ⟨h1, h2, seven_texts⟩

/-- **C110 (.awdb to .ipdb).** C96 without an assumption on the JSON library; only the type of the file must be UTF-8. -/
theorem C110_awdb {w : World} (hw : GoWorld w) (fuel : Nat) (hfuel : fuel ≥ 2 ^ 128) (orders : Nat → List Str) (canCreate : Str → Bool)
    (fs : Fs) (a : Args) (R : Awdb.Reader)
    (hin : NewDb w (converterFormats w fuel) fs a.input = .ok (.awdb R)) (hext : pathExt a.input = gs ".awdb")
    (h6 : R.md.ipVersion ≠ 6)
    (hkeys : ∀ ip net rec, ValidIP ip → (To4 ip).isSome → R.Find ip = .ok (net, rec) → mapGet rec (gs "asn") = none ∧ mapGet rec [] = none)
    (hall : ∀ ip, ValidIP ip → (To4 ip).isSome → ∃ i, Says (.awdb R) ip i)
    (hrule : a.rule = gs "default") (hline : a.line = [])
    (hplain : ∀ ip i, ValidIP ip → (To4 ip).isSome → Says (.awdb R) ip i → Plainly i)
    (hord : AnswerOrders (fun i => ∃ ip, Family w (.awdb R) ip ∧ SaysNoAsn (.awdb R) ip i) orders)
    (ho : (0x2C : UInt8) ∉ a.output) (he : pathExt a.output = gs ".ipdb") (hcc : canCreate a.output = true)
    (htype : IsText R.md.databaseType) :
    ∃ fs' b, converter w fuel orders canCreate fs a = some (fs', .ok ()) ∧
      fs' a.output = some b ∧ (∀ n ≠ a.output, fs' n = fs n) ∧
      (b.length < 2 ^ 32 → ∃ q, NewDb w (serverFormats w fuel) fs' a.output = .ok q ∧
        (∀ ip i, Family w (.awdb R) ip → SaysNoAsn (.awdb R) ip i → ∃ o n, q.query ip = .ok (o, maskFor n ip) ∧
          Covers n (addrNum ip) ∧ Finished (fun i => ∃ ip, Family w (.awdb R) ip ∧ SaysNoAsn (.awdb R) ip i) i o ∧
          ∀ ip', Family w (.awdb R) ip' → Covers n (addrNum ip') → ∃ i', SaysNoAsn (.awdb R) ip' i' ∧
            Finished (fun i => ∃ ip, Family w (.awdb R) ip ∧ SaysNoAsn (.awdb R) ip i) i' o) ∧
        (∀ ip, ¬ Family w (.awdb R) ip → q.query ip = .err .databaseError)) :=
  C96_awdb w fuel hfuel orders canCreate fs a R hin hext h6 hkeys hall hrule hline hplain hord ho he hcc
    ((goMeta hw _ _).mpr ⟨isText_append (isText_gs _) htype, (fun s hs => by cases hs), seven_texts⟩)

/-! ## Concrete cases -/

/-- The world of the example of C64 with Go's JSON. -/
def goExWorld : World :=
  { exWorld with encMeta := marshalMeta false false, decMeta := unmarshalMeta, encVersion := marshalVersion false false,
                 decVersion := unmarshalVersion }

theorem goEx_world : GoWorld goExWorld where
  encMeta := fun _ => ⟨false, false, rfl⟩
  decMeta := rfl
  decVersion := rfl
  now := by show IsInt64 0; decide
  day := isText_gs _
  date := fun _ => isText_gs _

def goExText : Str := gs "#### scan dump now ####\n#### {\"IpType\":3,\"Count\":3,\"Build\":0,\"Version\":\"v\",\"Languages\":null,\"ExtraInfo\":null}\n#### country,province,city,isp,asn,continent,district\n10.0.0.0/9\t中国,浙江省,杭州,电信,4134,AS,\n10.128.0.0/9\t中国,浙江,杭州,鹏博士,4134,AS,\n2001:db8::/32\t美国,,,,15169,NA,\n"

def goExFs : Fs := fun n => if n = gs "a.scan" then some goExText else none

theorem goEx_dump : Plain.dump unmarshalVersion goExText (Export.ParseRule (ruleText exArgs.rule)) = .ok exTable := by
  decide +kernel

theorem goEx_dumps (fuel : Nat) : Dumps goExWorld fuel goExFs exArgs id exTable := by
  refine ⟨goExText, fun b e => withSlices id (some (Plain.dump goExWorld.decVersion b e)), if_pos rfl, ?_, ?_⟩
  · have he : pathExt exArgs.input = gs ".scan" := by decide +kernel
    rw [he]; rfl
  · show withSlices id (some (Plain.dump unmarshalVersion goExText (Export.ParseRule (ruleText exArgs.rule)))) = _
    rw [goEx_dump]; rfl

/-- A `.scan` text whose version line is JSON, converted with Go's JSON: nothing is left to assume. -/
example (fuel : Nat) : ∃ fs' b, converter goExWorld fuel (fun _ => exKeys) (fun _ => true) goExFs exArgs = some (fs', .ok ()) ∧
    fs' exArgs.output = some b := by
  obtain ⟨fs', b, h1, h2, _⟩ := C110_convert goEx_world fuel (fun _ => exKeys) (fun _ => true) goExFs exArgs id exTable
    (goEx_dumps fuel) ex_table rfl ex_orders (by decide +kernel) (by decide +kernel) rfl
    (fun h => absurd h (by decide +kernel))
    (by
      intro f hf
      rw [← repair_eq_iff]
      revert f
      decide +kernel)
  exact ⟨fs', b, h1, h2⟩

end Uip.Program
