import Verif.Props.ConverterExample
/-!
# Properties C79-C80: the self checks of an opened database, and the families it reports
-/
namespace Uip.Program
open Uip Uip.Spec

/-! ## C79 -/

/-- 8.8.8.8, 119.29.29.29, 2001:4860:4860::8888 and 2606:4700:4700::1111, as `net.ParseIP` gives them. -/
def google4 : IP := [0, 0, 0, 0, 0, 0, 0, 0, 0, 0, 255, 255, 8, 8, 8, 8]
def dnspod4 : IP := [0, 0, 0, 0, 0, 0, 0, 0, 0, 0, 255, 255, 119, 29, 29, 29]
def google6 : IP := [0x20, 0x01, 0x48, 0x60, 0x48, 0x60, 0, 0, 0, 0, 0, 0, 0, 0, 0x88, 0x88]
def cloudflare6 : IP := [0x26, 0x06, 0x47, 0, 0x47, 0, 0, 0, 0, 0, 0, 0, 0, 0, 0x11, 0x11]

example : ParseIP (gs "8.8.8.8") = some google4 ∧ ParseIP (gs "119.29.29.29") = some dnspod4 ∧
    ParseIP (gs "2001:4860:4860::8888") = some google6 ∧ ParseIP (gs "2606:4700:4700::1111") = some cloudflare6 := by
  decide +kernel

/-- The database answers the address with the country. -/
def CountryIs (q : QueryFn) (a : IP) (country : Str) : Prop := ∃ info mask, q a = .ok (info, mask) ∧ info.country = country

theorem check_ok (q : QueryFn) (a : IP) (c : Str) : Db.check q a c = .ok () ↔ CountryIs q a c := by
  unfold Db.check Db.Query CountryIs
  cases h : q a with
  | err e => simp [bind, Res.bind]
  | panic => simp [bind, Res.bind]
  | ok p =>
    obtain ⟨i, m⟩ := p
    rw [Res.ok_bind]
    simp only []
    by_cases hc : i.country = c
    · rw [if_neg (by simp [hc])]; exact ⟨fun _ => ⟨i, m, rfl, hc⟩, fun _ => rfl⟩
    · rw [if_pos hc]
      refine ⟨fun h => (by cases h), fun ⟨i', m', e, hc'⟩ => ?_⟩
      cases e; exact absurd hc' hc

theorem check_no_panic (q : QueryFn) (a : IP) (c : Str) (h : q a ≠ .panic) : Db.check q a c ≠ .panic := by
  unfold Db.check Db.Query
  cases hq : q a with
  | err e => simp [bind, Res.bind]
  | panic => exact absurd hq h
  | ok p =>
    rw [Res.ok_bind]
    simp only []
    split <;> simp

theorem bind_unit_ok {a b : Res Unit} : (a >>= fun _ => b) = .ok () ↔ a = .ok () ∧ b = .ok () := by
  cases a <;> simp [bind, Res.bind]

theorem bind_unit_panic {a b : Res Unit} (ha : a ≠ .panic) (hb : b ≠ .panic) : (a >>= fun _ => b) ≠ .panic := by
  cases a <;> simp_all [bind, Res.bind]

/-- C79: on any database, CheckV4 passes exactly when 8.8.8.8 is in 美国 and 119.29.29.29 in 中国. -/
theorem C79_check_v4 (q : QueryFn) :
    Db.CheckV4 q = .ok () ↔ CountryIs q google4 (gs "美国") ∧ CountryIs q dnspod4 (gs "中国") := by
  unfold Db.CheckV4
  rw [bind_unit_ok, check_ok, check_ok]; rfl

/-- C79: CheckV6 passes exactly when the two IPv6 probes are in 美国. -/
theorem C79_check_v6 (q : QueryFn) :
    Db.CheckV6 q = .ok () ↔ CountryIs q google6 (gs "美国") ∧ CountryIs q cloudflare6 (gs "美国") := by
  unfold Db.CheckV6
  rw [bind_unit_ok, check_ok, check_ok]; rfl

/-- C79: a packed table passes CheckV4 exactly when it holds IPv4, 8.8.8.8 has a row with country 美国 and 119.29.29.29 one
with 中国; CheckV6 likewise; neither crashes, whatever is missing. -/
theorem C79_packed (w : World) (fuel : Nat) {ipd : IpData} (h : RowsOK ipd)
    (hval : ValuesOK ipd) (hd : DisjointRows (rowsOf ipd)) (h2 : 2 ≤ ipd.fields.length)
    (hj : Ipdb.MetaRoundTrip w.encMeta w.decMeta (Ipdb.buildMeta w.now ipd.version ipd.fields)) (b : Bytes)
    (hb : Ipdb.pack w.encMeta w.now ipd = .ok b) (hl : b.length < 2 ^ 32) :
    ∃ q, NewDbFromBytes w (serverFormats w fuel) (gs ".ipdb") b = .ok q ∧
      (Db.CheckV4 q.query = .ok () ↔ ipd.version.ipType ≠ IpV6 ∧
        (∃ r ∈ ipd.ips, Covers r.cidr (addrNum google4) ∧ (infoOf ipd.fields r.values).country = gs "美国") ∧
        (∃ r ∈ ipd.ips, Covers r.cidr (addrNum dnspod4) ∧ (infoOf ipd.fields r.values).country = gs "中国")) ∧
      (Db.CheckV6 q.query = .ok () ↔ ipd.version.ipType ≠ IpV4 ∧
        (∃ r ∈ ipd.ips, Covers r.cidr (addrNum google6) ∧ (infoOf ipd.fields r.values).country = gs "美国") ∧
        (∃ r ∈ ipd.ips, Covers r.cidr (addrNum cloudflare6) ∧ (infoOf ipd.fields r.values).country = gs "美国")) ∧
      Db.CheckV4 q.query ≠ .panic ∧ Db.CheckV6 q.query ≠ .panic := by
  obtain ⟨b', e1, k⟩ := opened_packed (knows_server w fuel) h hval hd h2 hj
  rw [hb] at e1
  injection e1 with e1; subst e1
  obtain ⟨q, o, np, a1, a2⟩ := k hl
  have key : ∀ a c, ValidIP a → (CountryIs q.query a c ↔ Supports ipd.version a ∧
      ∃ r ∈ ipd.ips, Covers r.cidr (addrNum a) ∧ (infoOf ipd.fields r.values).country = c) := by
    intro a c hv
    by_cases hs : Supports ipd.version a
    · by_cases hr : ∃ r ∈ ipd.ips, Covers r.cidr (addrNum a)
      · obtain ⟨r, hr, hc⟩ := hr
        constructor
        · rintro ⟨i, m, e, hi⟩
          rw [a1 a r hv hs hr hc] at e
          cases e
          exact ⟨hs, r, hr, hc, hi⟩
        · rintro ⟨_, r', hr', hc', hi⟩
          exact ⟨_, _, a1 a r' hv hs hr' hc', hi⟩
      · constructor
        · rintro ⟨i, m, e, hi⟩
          rw [a2 a (.inr (.inr fun r hr' hc => hr ⟨r, hr', hc⟩))] at e
          cases e
        · rintro ⟨_, r, hr', hc, _⟩
          exact absurd ⟨r, hr', hc⟩ hr
    · constructor
      · rintro ⟨i, m, e, hi⟩
        rw [a2 a (.inr (.inl hs))] at e
        cases e
      · rintro ⟨hs', _⟩; exact absurd hs' hs
  have s4 : ∀ a, (To4 a).isSome = true → (Supports ipd.version a ↔ ipd.version.ipType ≠ IpV6) := by
    intro a ha; unfold Supports; rw [if_pos ha]
  have s6 : ∀ a, (To4 a).isSome = false → (Supports ipd.version a ↔ ipd.version.ipType ≠ IpV4) := by
    intro a ha; unfold Supports; rw [if_neg (by rw [ha]; decide)]
  refine ⟨q, o, ?_, ?_, ?_, ?_⟩
  · rw [C79_check_v4, key _ _ (by decide), key _ _ (by decide), s4 google4 (by decide), s4 dnspod4 (by decide)]
    exact ⟨fun ⟨⟨x, y⟩, _, z⟩ => ⟨x, y, z⟩, fun ⟨x, y, z⟩ => ⟨⟨x, y⟩, x, z⟩⟩
  · rw [C79_check_v6, key _ _ (by decide), key _ _ (by decide), s6 google6 (by decide), s6 cloudflare6 (by decide)]
    exact ⟨fun ⟨⟨x, y⟩, _, z⟩ => ⟨x, y, z⟩, fun ⟨x, y, z⟩ => ⟨⟨x, y⟩, x, z⟩⟩
  · unfold Db.CheckV4
    exact bind_unit_panic (check_no_panic _ _ _ (np _)) (check_no_panic _ _ _ (np _))
  · unfold Db.CheckV6
    exact bind_unit_panic (check_no_panic _ _ _ (np _)) (check_no_panic _ _ _ (np _))

/-- A table with the two IPv4 probes: the hypotheses of `C79_packed` are met, the IPv4 check passes and the IPv6 one fails. -/
def checkTable : IpData :=
  ⟨[fCountry, fISP], exVersion,
   [⟨⟨[8, 8, 8, 0], [255, 255, 255, 0]⟩, [gs "美国", gs "谷歌"]⟩,
    ⟨⟨[119, 29, 29, 0], [255, 255, 255, 0]⟩, [gs "中国", []]⟩]⟩

theorem checkTable_size : Ipdb.packedSize checkTable < 2 ^ 32 := by decide +kernel

example : ∃ b q, Ipdb.pack exWorld.encMeta exWorld.now checkTable = .ok b ∧
    NewDbFromBytes exWorld (serverFormats exWorld 0) (gs ".ipdb") b = .ok q ∧
    Db.CheckV4 q.query = .ok () ∧ Db.CheckV6 q.query ≠ .ok () := by
  have h : RowsOK checkTable := by decide +kernel
  obtain ⟨b, hb, _⟩ := Ipdb.opens h (ex_meta checkTable.version checkTable.fields)
  obtain ⟨q, o, c4, c6, _⟩ := C79_packed exWorld 0 h (by decide +kernel) (by decide +kernel) (by decide) (ex_meta _ _) b hb
    (Ipdb.size_of_packed checkTable_size hb)
  refine ⟨b, q, hb, o, c4.mpr ⟨by decide, by decide +kernel, by decide +kernel⟩, fun h6 => ?_⟩
  have := (c6.mp h6).2.1
  revert this; decide +kernel

/-! ## C80 -/

/-- C80: the version reported for a packed table says which families it answers: HasIpV4 exactly when it was packed for IPv4
or both families, HasIpV6 likewise, IsIpV4/IsIpV6/IsIpAll when it is that family alone or both.  An address of a family it
does not have is refused with the error for that family. -/
theorem C80_families {enc : Ipdb.MetaData → Bytes} {dec : Bytes → Option Ipdb.MetaData} {now : Int} {ipd : IpData}
    (fmtDate : Int → Str) (h : RowsOK ipd) (hj : Ipdb.MetaRoundTrip enc dec (Ipdb.buildMeta now ipd.version ipd.fields)) :
    ∃ bytes, Ipdb.pack enc now ipd = .ok bytes ∧ (bytes.length < 2 ^ 32 →
      ∃ r, Ipdb.newReaderFromBytes dec bytes = .ok r ∧
        ((r.version fmtDate).HasIpV4 = true ↔ ipd.version.ipType ≠ IpV6) ∧
        ((r.version fmtDate).HasIpV6 = true ↔ ipd.version.ipType ≠ IpV4) ∧
        ((r.version fmtDate).IsIpAll = true ↔ (r.version fmtDate).HasIpV4 = true ∧ (r.version fmtDate).HasIpV6 = true) ∧
        ((r.version fmtDate).IsIpV4 = true ↔ (r.version fmtDate).HasIpV4 = true ∧ (r.version fmtDate).HasIpV6 = false) ∧
        ((r.version fmtDate).IsIpV6 = true ↔ (r.version fmtDate).HasIpV4 = false ∧ (r.version fmtDate).HasIpV6 = true) ∧
        (∀ a, (To4 a).isSome → (r.version fmtDate).HasIpV4 = false → r.findMap a (gs "CN") = .err .noSupportIPv4) ∧
        (∀ a, ValidIP a → To4 a = none → (r.version fmtDate).HasIpV6 = false → r.findMap a (gs "CN") = .err .noSupportIPv6)) := by
  obtain ⟨bytes, h1, h2⟩ := Ipdb.opens h hj
  refine ⟨bytes, h1, fun hl => ?_⟩
  obtain ⟨r, h3, _, h5⟩ := h2 hl
  obtain ⟨bytes', h1', h6⟩ := Ipdb.C23_lookup_error h hj
  rw [h1] at h1'; cases h1'
  obtain ⟨r', h3', h7⟩ := h6 hl
  rw [h3] at h3'; cases h3'
  refine ⟨r, h3, ?_⟩
  obtain ⟨N, S, hmd⟩ := h5.md
  have ht : (r.version fmtDate).ipType = if ipd.version.ipType = IpV4 then IpV4 else if ipd.version.ipType = IpV6 then IpV6 else IpAll := by
    unfold Ipdb.Reader.version
    rw [hmd]
    show (Ipdb.buildMeta now ipd.version ipd.fields).IpType = _
    unfold Ipdb.MetaData.IpType Ipdb.buildMeta Ipdb.ipVersion
    simp only []
    split
    · rfl
    · split <;> rfl
  have r4 : ∀ a, (To4 a).isSome → ipd.version.ipType = IpV6 → r.findMap a (gs "CN") = .err .noSupportIPv4 := by
    intro a ha ht
    obtain ⟨l, hl⟩ := Option.isSome_iff_exists.mp ha
    rw [(h7 a).2.1 (To4_eq_some hl).1 (by unfold Supports; rw [if_pos ha]; simpa using ht), if_pos ha]
  have r6 : ∀ a, ValidIP a → To4 a = none → ipd.version.ipType = IpV4 → r.findMap a (gs "CN") = .err .noSupportIPv6 := by
    intro a hv ha ht
    rw [(h7 a).2.1 hv (by unfold Supports; rw [if_neg (by simp [ha])]; simpa using ht), if_neg (by simp [ha])]
  unfold VersionInfo.HasIpV4 VersionInfo.HasIpV6 VersionInfo.IsIpAll VersionInfo.IsIpV4 VersionInfo.IsIpV6
  rw [ht]
  by_cases e4 : ipd.version.ipType = IpV4
  · rw [if_pos e4, e4]
    exact ⟨by decide, by decide, by decide, by decide, by decide, fun _ _ hf => (by cases hf), fun a hv ha _ => r6 a hv ha e4⟩
  · rw [if_neg e4]
    by_cases e6 : ipd.version.ipType = IpV6
    · rw [if_pos e6, e6]
      exact ⟨by decide, by decide, by decide, by decide, by decide, fun a ha _ => r4 a ha e6, fun _ _ _ hf => (by cases hf)⟩
    · rw [if_neg e6]
      exact ⟨by simp [e6, IpAll], by simp [e4, IpAll], by decide, by decide, by decide, fun _ _ hf => (by cases hf), fun _ _ _ hf => (by cases hf)⟩

example : ∃ bytes r, Ipdb.pack Ipdb.encMeta 0 Ipdb.demo1 = .ok bytes ∧ Ipdb.newReaderFromBytes Ipdb.decMeta bytes = .ok r ∧
    (r.version (fun _ => [])).HasIpV4 = true ∧ (r.version (fun _ => [])).HasIpV6 = false := by
  obtain ⟨bytes, h1, h2⟩ := C80_families (enc := Ipdb.encMeta) (dec := Ipdb.decMeta) (now := 0) (ipd := Ipdb.demo1)
    (fun _ => []) (by decide +kernel) (fun _ _ _ _ => Ipdb.dec_encMeta _)
  obtain ⟨r, h3, h4, h6, _⟩ := h2 (Ipdb.size_of_packed Ipdb.demo1_size h1)
  exact ⟨bytes, r, h1, h3, h4.mpr (by decide), Bool.eq_false_iff.mpr fun h => h6.mp h (by decide)⟩

end Uip.Program
