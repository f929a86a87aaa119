import Verif.Props.EndToEnd6
/-!
# Property C96 for the IPv6 `.awdb` inputs that lose data or are never converted

An IPv6 file whose network for the last address before `::ffff:0:0` ends there: the dump goes on with 0.0.0.0 (C99).
-/
namespace Uip.Program
open Uip Uip.Spec Uip.Operate
open Uip.Export (sevenFields defaultKeeps)

/-- What the default rule makes of the record of an answer. -/
theorem awdb_exported {R : Awdb.Reader} {e : Export.Exporter}
    (e3 : ∀ fm data : GoMap Str, e.Export (Export.Select fm e.fields) data = .ok (defaultKeeps (ruleValue fm data (gs "country"))
      (ruleValue fm data (gs "province")) (ruleValue fm data (gs "city")) (ruleValue fm data (gs "isp"))
      (ruleValue fm data (gs "asn")) (ruleValue fm data (gs "continent")) (ruleValue fm data (gs "district"))))
    {ip : IP} {j : IpInfo} {m : Nat} (h : R.Query ip = .ok (j, m))
    (hk : ∀ net rec, R.Find ip = .ok (net, rec) → mapGet rec (gs "asn") = none ∧ mapGet rec [] = none) :
    ∃ c rec, R.Find ip = .ok (c, rec) ∧
      e.Export (Export.Select Awdb.CommonFieldsMap e.fields) rec = .ok (vals (ruled { j with asn := [] })) := by
  unfold Awdb.Reader.Query at h
  obtain ⟨⟨c, rec⟩, g1, g2⟩ := Res.bind_eq_ok.mp h
  obtain ⟨g3, g4⟩ := Prod.mk.inj (Res.ok.inj g2)
  refine ⟨c, rec, g1, ?_⟩
  obtain ⟨n1, n2⟩ := hk c rec g1
  have key : ∀ f k, mapGet Awdb.CommonFieldsMap f = some k → ruleValue Awdb.CommonFieldsMap rec f = Awdb.strAt rec k := by
    intro f k hk; unfold ruleValue Awdb.strAt; rw [hk]
  have hd : ruleValue Awdb.CommonFieldsMap rec (gs "district") = [] := by
    unfold ruleValue
    rw [show mapGet Awdb.CommonFieldsMap (gs "district") = none by decide +kernel, n2]; rfl
  have ha : ruleValue Awdb.CommonFieldsMap rec (gs "asn") = [] := by
    rw [key _ (gs "asn") (by decide +kernel)]
    unfold Awdb.strAt; rw [n1]; rfl
  rw [e3, key (gs "country") (gs "country") (by decide +kernel), key (gs "province") (gs "province") (by decide +kernel),
    key (gs "city") (gs "city") (by decide +kernel), key (gs "isp") (gs "isp") (by decide +kernel), ha,
    key (gs "continent") (gs "continent") (by decide +kernel), hd, ← keeps_ruled, ← g3]

/-- The addresses up to `::ffff:255.255.255.255`, IPv4 addresses among them. -/
def UpToIPv4 (ip : IP) : Prop := ValidIP ip ∧ addrNum ip < 0x10000 * 2 ^ 32

/-- **C96 (lost).** An IPv6 `.awdb` file whose network for the last address before `::ffff:0:0` ends there and that has
IPv4 networks: the conversion (default rule, no line file) succeeds, and its output answers exactly the addresses below
`::ffff:0:0`, each as in C96, of the answers to all addresses up to `::ffff:255.255.255.255` (the IPv4 answers among them).
Every address above is lost. -/
theorem C96_awdb_lost (w : World) (fuel : Nat) (hfuel : fuel ≥ 2 ^ 128) (orders : Nat → List Str) (canCreate : Str → Bool)
    (fs : Fs) (a : Args) (R : Awdb.Reader)
    (hin : NewDb w (converterFormats w fuel) fs a.input = .ok (.awdb R)) (hext : pathExt a.input = gs ".awdb")
    (h6 : R.md.ipVersion = 6)
    (hkeys : ∀ ip net rec, ValidIP ip → R.Find ip = .ok (net, rec) → mapGet rec (gs "asn") = none ∧ mapGet rec [] = none)
    (hall : ∀ ip, ValidIP ip → ∃ i, Says (.awdb R) ip i)
    (hcross : ∃ c rec, R.Find belowMapped = .ok (c, rec) ∧ ¬ Covers c (0xffff * 2 ^ 32))
    (hfour : ∃ c rec, R.Find IPv4zero = .ok (c, rec) ∧ c.ip.length = 4)
    (hrule : a.rule = gs "default") (hline : a.line = [])
    (hplain : ∀ ip i, UpToIPv4 ip → Says (.awdb R) ip i → Plainly i)
    (hord : AnswerOrders (fun i => ∃ ip, UpToIPv4 ip ∧ SaysNoAsn (.awdb R) ip i) orders)
    (ho : (0x2C : UInt8) ∉ a.output) (he : pathExt a.output = gs ".ipdb") (hcc : canCreate a.output = true)
    (hmeta : Ipdb.MetaRoundTrip w.encMeta w.decMeta (Ipdb.buildMeta w.now (OpenDb.versionInfo w (.awdb R)) sevenFields)) :
    ∃ fs' b, converter w fuel orders canCreate fs a = some (fs', .ok ()) ∧
      fs' a.output = some b ∧ (∀ n ≠ a.output, fs' n = fs n) ∧
      (b.length < 2 ^ 32 → ∃ q, NewDb w (serverFormats w fuel) fs' a.output = .ok q ∧
        (∀ ip i, ValidIP ip → addrNum ip < 0xffff * 2 ^ 32 → SaysNoAsn (.awdb R) ip i → ∃ o n, q.query ip = .ok (o, maskFor n ip) ∧
          Covers n (addrNum ip) ∧ Finished (fun i => ∃ ip, UpToIPv4 ip ∧ SaysNoAsn (.awdb R) ip i) i o ∧
          ∀ ip', UpToIPv4 ip' → Covers n (addrNum ip') → ∃ i', SaysNoAsn (.awdb R) ip' i' ∧
            Finished (fun i => ∃ ip, UpToIPv4 ip ∧ SaysNoAsn (.awdb R) ip i) i' o) ∧
        (∀ ip, ¬ (ValidIP ip ∧ addrNum ip < 0xffff * 2 ^ 32) → q.query ip = .err .databaseError)) := by
  obtain ⟨bytes, hfs, hop, hfb⟩ := open_awdb hext hin
  obtain ⟨e, e1, e2, e3⟩ := default_export
  obtain ⟨c0, i0, hz, hl0⟩ := hfour
  have hfind : ∀ ip, ValidIP ip → ∃ c rec i, R.Find ip = .ok (c, rec) ∧ SaysNoAsn (.awdb R) ip i ∧
      e.Export (Export.Select Awdb.CommonFieldsMap e.fields) rec = .ok (vals (ruled i)) := by
    intro ip hv
    obtain ⟨j, m, hj⟩ := hall ip hv
    obtain ⟨c, rec, g1, g2⟩ := awdb_exported e3 hj (fun net rec h => hkeys ip net rec hv h)
    exact ⟨c, rec, _, g1, ⟨j, ⟨m, hj⟩, rfl⟩, g2⟩
  obtain ⟨D, hD⟩ := Awdb.C99_ends_mapped bytes (some e) R hop h6 c0 i0 hz hl0 (fun i => ⟨_, e3 Awdb.CommonFieldsMap i⟩)
    (fun ip hv => by obtain ⟨c, rec, _, h, _⟩ := hfind ip hv; exact ⟨c, rec, h⟩)
  have hD' := hD fuel hfuel
  have hb : Export.BuildIPData fuel Awdb.CommonFieldsMap Awdb.Fields (some e) (OpenDb.versionInfo w (.awdb R)) R.Find = some (.ok D) := by
    have h := hD'
    unfold Awdb.dump at h
    rw [hop] at h
    exact h
  obtain ⟨hf, hv, _⟩ := Dump.build_ok hb
  have hf' : D.fields = e.fields := hf
  obtain ⟨six, four, hips, t1, g1, t2, g2⟩ : ∃ six four, D.ips = six ++ four ∧
        Tiles 0 (six.map (·.cidr)) (0xffff * 2 ^ 32) ∧ (∀ x ∈ six, Awdb.GoodRow R (some e) D 16 x) ∧
        Tiles (0xffff * 2 ^ 32) (four.map (·.cidr)) (0x10000 * 2 ^ 32) ∧ (∀ x ∈ four, Awdb.GoodRow R (some e) D 4 x) := by
    rcases Awdb.C99_shape fuel bytes (some e) D R hfb h6 hD' with ⟨⟨c, i, h1, h2⟩, _⟩ | ⟨_, h⟩
    · obtain ⟨c', i', h3, h4⟩ := hcross
      rw [h1] at h3
      exact absurd ((Prod.mk.inj (Res.ok.inj h3)).1 ▸ h2) h4
    · exact h
  have tiles : Tiles 0 (D.ips.map (·.cidr)) (0x10000 * 2 ^ 32) := by
    rw [hips, List.map_append]
    have : ∀ (l l' : List IPNet) (lo mid hi : Nat), Tiles lo l mid → Tiles mid l' hi → Tiles lo (l ++ l') hi := by
      intro l
      induction l with
      | nil => intro l' lo mid hi h1 h2; have h1 : lo = mid := h1; subst h1; exact h2
      | cons n l ih => intro l' lo mid hi h1 h2; exact ⟨h1.1, ih l' _ mid hi h1.2 h2⟩
    exact this _ _ _ _ _ t1 t2
  have hcov := (tiles_covers tiles).2
  have wf : ∀ x ∈ D.ips, WFNet x.cidr := by
    intro x hx
    rw [hips] at hx
    rcases List.mem_append.mp hx with h | h
    · exact (g1 x h).1
    · exact (g2 x h).1
  have hself : ∀ x ∈ D.ips, Covers x.cidr (addrNum x.cidr.ip) := by
    intro x hx
    refine ⟨Nat.le_refl _, ?_⟩
    have := Nat.two_pow_pos (hostBits x.cidr)
    unfold netEnd; omega
  have row : ∀ x ∈ D.ips, ∀ ip, UpToIPv4 ip → Covers x.cidr (addrNum ip) → ∃ i, SaysNoAsn (.awdb R) ip i ∧ x.values = vals (ruled i) := by
    intro x hx ip hw hc
    obtain ⟨c, rec, i, k1, k2, k3⟩ := hfind ip hw.1
    have hag : Awdb.Agrees R (some e) D x ip := by
      rw [hips] at hx
      have h4 := To4_isSome_iff hw.1
      rcases List.mem_append.mp hx with h | h
      · have := ((tiles_covers t1).2 _).mp ⟨_, List.mem_map_of_mem h, hc⟩
        exact (g1 x h).2.2 ip hw.1 (by rw [h4]; constructor <;> intro h <;> omega) hc
      · have := ((tiles_covers t2).2 _).mp ⟨_, List.mem_map_of_mem h, hc⟩
        exact (g2 x h).2.2 ip hw.1 (by rw [h4]; constructor <;> intro h <;> omega) hc
    obtain ⟨info, k4, k5⟩ := hag
    rw [k1] at k4
    obtain ⟨_, rfl⟩ := Prod.mk.inj (Res.ok.inj k4)
    have k5' : e.Export (Export.Select Awdb.CommonFieldsMap D.fields) rec = .ok x.values := k5
    rw [hf', k3] at k5'
    exact ⟨i, k2, (Res.ok.inj k5').symm⟩
  have hdes : DescribesOn (OpenDb.versionInfo w (.awdb R)) UpToIPv4 (SaysNoAsn (.awdb R)) D := by
    refine ⟨hf'.trans e2, hv, fun h => ?_, wf, disjoint_iff.mpr (Dump.tiles_disjoint tiles), row, fun x hx => ?_, fun ip hw => ?_, ?_⟩
    · rw [h] at tiles
      have : (0 : Nat) = 0x10000 * 2 ^ 32 := tiles
      omega
    · refine ⟨x.cidr.ip, ⟨(wf x hx).1.1, ?_⟩, hself x hx⟩
      exact ((hcov _).mp ⟨_, List.mem_map_of_mem hx, hself x hx⟩).2
    · obtain ⟨n, hn, hc⟩ := (hcov (addrNum ip)).mpr ⟨Nat.zero_le _, hw.2⟩
      obtain ⟨x, hx, rfl⟩ := List.mem_map.mp hn
      exact ⟨x, hx, hc⟩
    · rintro ip i j ⟨i', ⟨m, h1⟩, rfl⟩ ⟨j', ⟨m', h2⟩, rfl⟩
      rw [h1] at h2
      rw [(Prod.mk.inj (Res.ok.inj h2)).1]
  have hdumps : Dumps w fuel fs a (capOf w (some e)) D := by
    refine ⟨bytes, _, hfs, by rw [hext]; exact dumper_awdb w fuel, ?_⟩
    simp only [hrule, ruleText, if_true, e1]
    rw [hD']
    rfl
  have hv6 : (OpenDb.versionInfo w (.awdb R)).ipType = IpV6 := by
    show R.version.ipType = IpV6
    unfold Awdb.Reader.version Awdb.Metadata.IpType
    rw [h6]; rfl
  have hne : IpV6 ≠ IpV4 := by decide
  obtain ⟨fs', b, c1, c2, c3, c4⟩ := convert_on hdes hdumps (fun i hi => by
      obtain ⟨ip, h1, j, h2, rfl⟩ := hi
      have := hplain ip j h1 h2
      intro u hu
      simp only [List.mem_cons, List.not_mem_nil, or_false] at hu
      rcases hu with h | h | h | h | h | h | h
      · exact this u (by simp [h])
      · exact this u (by simp [h])
      · exact this u (by simp [h])
      · exact this u (by simp [h])
      · rw [h]; decide
      · exact this u (by simp [h])
      · exact this u (by simp [h]))
    (.inl ⟨0x10000 * 2 ^ 32, by omega, fun x hx hc => by
      have := (hcov _).mp ⟨_, List.mem_map_of_mem hx, hc⟩
      omega⟩) hline hord ho he hcc hmeta
  refine ⟨fs', b, c1, c2, c3, fun hl => ?_⟩
  obtain ⟨q, q1, q2, q3⟩ := c4 hl
  refine ⟨q, q1, fun ip i hv hlt hk => ?_, fun ip hn => q3 ip ?_⟩
  · refine q2 ip i hv ⟨hv, by omega⟩ ?_ hk
    unfold Supports
    rw [hv6, if_neg (by rw [To4_isSome_iff hv]; omega)]
    exact hne
  · by_cases hv : ValidIP ip
    · right
      have hge : 0xffff * 2 ^ 32 ≤ addrNum ip := by
        by_cases h : 0xffff * 2 ^ 32 ≤ addrNum ip
        · exact h
        · exact absurd ⟨hv, by omega⟩ hn
      by_cases hlt : addrNum ip < 0x10000 * 2 ^ 32
      · left
        unfold Supports
        rw [hv6, if_pos (by rw [To4_isSome_iff hv]; omega)]
        simp
      · right
        intro x hx hc
        have := (hcov _).mp ⟨_, List.mem_map_of_mem hx, hc⟩
        omega
    · exact .inl hv

/-- A walk on which every lookup, row and next address can be made ends well or goes on. -/
theorem walk_safe {find : Export.Find} {row : GoMap Str → Res (List Str)}
    (hP : ∀ m, ValidIP m → ∃ c i vs, find m = .ok (c, i) ∧ WFNet c ∧ row i = .ok vs) :
    ∀ (fuel : Nat) (m : IP) (acc : List IpRaw), ValidIP m →
      Export.buildLoop find row fuel m acc = none ∨ ∃ out, Export.buildLoop find row fuel m acc = some (.ok out) := by
  intro fuel
  induction fuel with
  | zero => intro m acc _; exact .inl rfl
  | succ fuel ih =>
    intro m acc hm
    obtain ⟨c, i, vs, h1, h2, h3⟩ := hP m hm
    obtain ⟨last, h4, h5, _⟩ := LastIP_spec h2.1
    unfold Export.buildLoop
    simp only [h1, h3, h4, Export.NextStart_ok h4]
    split
    · exact .inr ⟨_, rfl⟩
    · exact ih _ _ (NextIP_valid (by unfold ValidIP; rw [h5]; exact h2.1.1))

/-- **C96 (never converted).** An IPv6 `.awdb` file that answers every address, whose network for the last address before
`::ffff:0:0` ends there and in which IPv4 addresses lie in an IPv6 network: the conversion never ends. -/
theorem C96_awdb_endless (w : World) (fuel : Nat) (orders : Nat → List Str) (canCreate : Str → Bool)
    (fs : Fs) (a : Args) (R : Awdb.Reader)
    (hin : NewDb w (converterFormats w fuel) fs a.input = .ok (.awdb R)) (hext : pathExt a.input = gs ".awdb")
    (h6 : R.md.ipVersion = 6) (hall : ∀ ip, ValidIP ip → ∃ i, Says (.awdb R) ip i)
    (hcross : ∃ c rec, R.Find belowMapped = .ok (c, rec) ∧ ¬ Covers c (0xffff * 2 ^ 32))
    (hsix : ∃ c rec, R.Find IPv4zero = .ok (c, rec) ∧ c.ip.length = 16)
    (hrule : a.rule = gs "default") (hline : a.line = []) :
    converter w fuel orders canCreate fs a = none := by
  obtain ⟨bytes, hfs, hop, hfb⟩ := open_awdb hext hin
  obtain ⟨e, e1, e2, e3⟩ := default_export
  obtain ⟨c, i, hb, hc⟩ := hcross
  obtain ⟨c0, i0, hz, hl⟩ := hsix
  have hnone : Awdb.dump fuel bytes (some e) = none := by
    have hne := Awdb.C99_endless bytes (some e) R hfb h6 c i hb hc c0 i0 hz hl fuel
    have hd : Awdb.dump fuel bytes (some e) =
        Export.BuildIPData fuel Awdb.CommonFieldsMap Awdb.Fields (some e) R.version R.Find := by
      unfold Awdb.dump; rw [hop]
    rw [hd] at hne ⊢
    rcases walk_safe (find := R.Find) (row := Export.rowValues Awdb.CommonFieldsMap (Export.dumpFields Awdb.CommonFieldsMap Awdb.Fields (some e)) (some e))
      (fun m hm => by
        obtain ⟨j, k, hj⟩ := hall m hm
        have hj' : R.Query m = .ok (j, k) := hj
        unfold Awdb.Reader.Query at hj'
        obtain ⟨⟨c, rec⟩, g1, _⟩ := Res.bind_eq_ok.mp hj'
        exact ⟨c, rec, _, g1, (Awdb.lookup_own (Awdb.opened hfb).start hm (Awdb.find_ok g1).choose_spec.1).1, e3 Awdb.CommonFieldsMap rec⟩)
      fuel (Export.firstMarker R.version) [] (Export.firstMarker_spec R.version).1.1 with h | ⟨out, h⟩
    · unfold Export.BuildIPData
      simp only []
      rw [h]
      rfl
    · exfalso
      unfold Export.BuildIPData at hne
      simp only [] at hne
      rw [h] at hne
      exact hne _ rfl
  unfold converter
  simp only []
  rw [if_neg (by rw [hline]; simp)]
  unfold DumpFile
  rw [hfs]
  simp only []
  rw [hext, dumper_awdb]
  simp only [hrule, ruleText, if_true, e1]
  rw [hnone]
  rfl

end Uip.Program
