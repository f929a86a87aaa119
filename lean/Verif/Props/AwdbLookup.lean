import Verif.Model.Awdb.Lookup
import Verif.Props.AwdbFile
/-!
# Properties C83, C84: Lookup, LookupOffset and Decode of awdb readers; the version reported
-/
namespace Uip.Awdb
open Uip Uip.Spec Uip.Spec.Awdb

/-- **C83 (Lookup).** Lookup gives the record LookupNetwork gives, fails as it fails and crashes as it crashes. -/
theorem C83_lookup (r : Reader) (a : IP) :
    (∀ rec, r.Lookup a = .ok rec ↔ ∃ net, r.LookupNetwork a = .ok (net, rec)) ∧
    (∀ e, r.Lookup a = .err e ↔ r.LookupNetwork a = .err e) ∧
    (r.Lookup a = .panic ↔ r.LookupNetwork a = .panic) := by
  unfold Reader.Lookup Reader.LookupNetwork
  cases r.lookupPointer a with
  | err e => simp [Res.err_bind]
  | panic => simp [Res.panic_bind]
  | ok x =>
    obtain ⟨p, l, ip⟩ := x
    simp only [Res.ok_bind]
    by_cases h : p = 0
    · simp [h]
    · simp only [if_neg h]
      cases r.retrieveData p with
      | err e => simp [Res.err_bind]
      | panic => simp [Res.panic_bind]
      | ok v => simp [Res.ok_bind]

/-- The parts of an opened file are slices of it. -/
theorem opened_sizes {data : Bytes} {r : Reader} (h : FromBytes data = .ok r) :
    r.bufLen = data.length ∧ r.data.length ≤ data.length := by
  unfold FromBytes at h
  split at h
  · simp at h
  simp only [] at h
  split at h
  · simp at h
  obtain ⟨md, _, h⟩ := Res.bind_eq_ok.mp h
  split at h
  · simp at h
  obtain ⟨d, hd, h⟩ := Res.bind_eq_ok.mp h
  obtain ⟨ns, hn, h⟩ := Res.bind_eq_ok.mp h
  split at h
  · obtain ⟨⟨s, dp⟩, h1, h⟩ := Res.bind_eq_ok.mp h
    have := Res.ok.inj h
    subst this
    have := goSlice_ok hd
    exact ⟨rfl, by simp only []; omega⟩
  · simp at h

/-- **C83 (LookupOffset, Decode).** For every file shorter than 2^64 - 1 bytes and every address:
* LookupOffset answers NotFound exactly if LookupNetwork succeeds without a record;
* if it answers another offset, decoding that offset gives the record of LookupNetwork (or fails as LookupNetwork fails);
* if LookupNetwork gives a record, LookupOffset answers an offset. -/
theorem C83_offset (data : Bytes) (r : Reader) (ho : FromBytes data = .ok r) (hd : data.length < 2 ^ 64) (a : IP) :
    (r.LookupOffset a = .ok NotFound ↔ ∃ net, r.LookupNetwork a = .ok (net, none)) ∧
    (∀ off, r.LookupOffset a = .ok off → off ≠ NotFound →
      ∃ net, r.LookupNetwork a = (r.Decode off >>= fun v => .ok (net, some v))) ∧
    (∀ net v, r.LookupNetwork a = .ok (net, some v) → ∃ off, r.LookupOffset a = .ok off ∧ off ≠ NotFound ∧ r.Decode off = .ok v) := by
  have hb := (opened_sizes ho).1
  unfold Reader.LookupOffset Reader.LookupNetwork
  cases r.lookupPointer a with
  | err e => simp [Res.err_bind]
  | panic => simp [Res.panic_bind]
  | ok x =>
    obtain ⟨p, l, ip⟩ := x
    simp only [Res.ok_bind]
    by_cases h : p = 0
    · simp [h]
    · simp only [if_neg h]
      unfold Reader.retrieveData
      cases hr : r.resolveDataPointer p with
      | err e => simp [Res.err_bind]
      | panic => simp [Res.panic_bind]
      | ok o =>
        have hlt : o < 2 ^ 64 - 1 := by
          unfold Reader.resolveDataPointer at hr
          split at hr
          · simp at hr
          split at hr
          · simp at hr
          · have := Res.ok.inj hr; omega
        have hne : o ≠ NotFound := by unfold NotFound; omega
        simp only [Res.ok_bind]
        change (_ ↔ ∃ net, (r.Decode o >>= fun v => Res.ok (r.cidr ip l, some v)) = _) ∧
          (∀ off, _ → _ → ∃ net, (r.Decode o >>= fun v => Res.ok (r.cidr ip l, some v)) = _) ∧
          ∀ net v, (r.Decode o >>= fun v => Res.ok (r.cidr ip l, some v)) = _ → _
        refine ⟨⟨fun h => absurd (Res.ok.inj h) hne, ?_⟩, ?_, ?_⟩
        · rintro ⟨net, h⟩
          obtain ⟨v, _, h⟩ := Res.bind_eq_ok.mp h
          have := Res.ok.inj h
          simp at this
        · intro off h _
          have := Res.ok.inj h
          subst this
          exact ⟨_, rfl⟩
        · intro net v h
          obtain ⟨v', h1, h⟩ := Res.bind_eq_ok.mp h
          have := Res.ok.inj h
          simp only [Prod.mk.injEq, Option.some.injEq] at this
          exact ⟨o, rfl, hne, by rw [h1, this.2]⟩

/-- **C83 (NotFound).** Decoding NotFound is an error. -/
theorem C83_not_found (data : Bytes) (r : Reader) (ho : FromBytes data = .ok r) (hd : data.length < 2 ^ 64) :
    ∃ e, r.Decode NotFound = .err e := by
  have hb := (opened_sizes ho).2
  unfold Reader.Decode decodeAny decodeCtrlData
  rw [List.getElem?_eq_none (by unfold NotFound; omega)]
  exact ⟨_, rfl⟩

/-- **C83 (caching by offset).** Two addresses with the same offset have the same record: a client may keep decoded records
under their offsets. -/
theorem C83_cache (data : Bytes) (r : Reader) (ho : FromBytes data = .ok r) (hd : data.length < 2 ^ 64) (a b : IP) (off : Nat)
    (ha : r.LookupOffset a = .ok off) (hb : r.LookupOffset b = .ok off) (rec : Option Val) :
    r.Lookup a = .ok rec ↔ r.Lookup b = .ok rec := by
  have key : ∀ a, r.LookupOffset a = .ok off →
      (r.Lookup a = .ok rec ↔ if off = NotFound then rec = none else ∃ v, r.Decode off = .ok v ∧ rec = some v) := by
    intro a ha
    obtain ⟨h1, h2, h3⟩ := C83_offset data r ho hd a
    rw [(C83_lookup r a).1 rec]
    by_cases hn : off = NotFound
    · subst hn
      obtain ⟨net, hl⟩ := h1.mp ha
      rw [if_pos rfl, hl]
      constructor
      · rintro ⟨net', h⟩
        have := Res.ok.inj h
        simp only [Prod.mk.injEq] at this
        exact this.2.symm
      · rintro rfl; exact ⟨net, rfl⟩
    · obtain ⟨net, hl⟩ := h2 off ha hn
      rw [if_neg hn, hl]
      constructor
      · rintro ⟨net', h⟩
        obtain ⟨v, hv, h⟩ := Res.bind_eq_ok.mp h
        have := Res.ok.inj h
        simp only [Prod.mk.injEq] at this
        exact ⟨v, hv, this.2.symm⟩
      · rintro ⟨v, hv, rfl⟩
        rw [hv]; exact ⟨net, rfl⟩
  rw [key a ha, key b hb]

/-! Non-vacuity: in `demo6` IPv4 addresses and those of `8000::/1` share one record. -/
set_option maxRecDepth 100000 in
example : FromBytes demo6.bytes = .ok demo6Reader ∧ demo6.bytes.length < 2 ^ 64 ∧
    demo6Reader.LookupOffset [1, 2, 3, 4] = .ok 0 ∧ demo6Reader.LookupOffset (0x90 :: List.replicate 15 7) = .ok 0 ∧
    demo6Reader.LookupOffset (0x20 :: List.replicate 15 7) = .ok NotFound := by decide +kernel

/-! ## C84: the version -/

/-- **C84.** The version of an opened well-formed file: the family the metadata says (both families if it says neither 4 nor
6), the number of nodes, the time it was built, `ipplus360` and the database type, the languages, nothing else. -/
theorem C84_version (f : File) (hf : f.OK) : ∃ r, FromBytes f.bytes = .ok r ∧
    r.version.ipType = (if f.md.ipVersion = 4 then 1 else if f.md.ipVersion = 6 then 2 else 3) ∧
    r.version.count.toNat = f.nodes.length % 2 ^ 32 ∧ r.version.build = f.md.buildEpoch ∧
    r.version.version = gs "ipplus360" ++ f.md.databaseType ∧ r.version.languages = f.md.languages ∧ r.version.extraInfo = [] := by
  obtain ⟨r, ho, _, _, _, hm⟩ := file_opens hf
  refine ⟨r, ho, ?_, ?_, ?_, ?_, ?_, rfl⟩
  · unfold Reader.version Metadata.IpType; rw [hm]; rfl
  · unfold Reader.version; rw [hm, hf.mdCount]; exact UInt32.toNat_ofNat'
  · unfold Reader.version; rw [hm]
  · unfold Reader.version; rw [hm]
  · unfold Reader.version; rw [hm]

/-- Two files, of one family each. -/
example : ∃ r4 r6, FromBytes demo4.bytes = .ok r4 ∧ r4.version = ⟨1, 1, 1600000000, gs "ipplus360demo", [gs "CN"], []⟩ ∧
    FromBytes demo6.bytes = .ok r6 ∧ r6.version = ⟨2, 96, 1600000000, gs "ipplus360demo", [gs "CN"], []⟩ := by
  obtain ⟨r4, h4, _, _, _, m4⟩ := file_opens demo4_ok
  obtain ⟨r6, h6, _, _, _, m6⟩ := file_opens demo6_ok
  refine ⟨r4, r6, h4, ?_, h6, ?_⟩
  · unfold Reader.version; rw [m4]; decide +kernel
  · unfold Reader.version; rw [m6]; decide +kernel

end Uip.Awdb
