import Verif.Props.GoWorld
import Verif.Props.EndToEndExample
/-!
# The conversions of `EndToEndExample.lean` with Go's JSON (C110)
-/
namespace Uip.Program
open Uip Uip.Spec Uip.Operate Uip.Json
open Uip.Export (sevenFields)
open Uip.Dump (Walked)

theorem isText_of {s : Str} (h : repair s = s) : IsText s := (repair_eq_iff s).mp h

theorem src_texts : IsText srcTable.version.version ∧ (∀ s ∈ srcTable.version.extraInfo, IsText s) ∧ ∀ f ∈ srcTable.fields, IsText f :=
  ⟨isText_gs _, (fun s hs => by cases hs), fun f hf => isText_of (by revert f; decide +kernel)⟩

/-- The table, packed and opened by the converter's query library. -/
theorem goSrc_opened (fuel : Nat) : ∃ bytes Q, Ipdb.pack goExWorld.encMeta goExWorld.now srcTable = .ok bytes ∧
    NewDb goExWorld (converterFormats goExWorld fuel) (fun n => if n = gs "a.ipdb" then some bytes else none) srcArgs.input = .ok (.ipdb Q) ∧
    Q.r.md.fields.length = 5 ∧ (OpenDb.versionInfo goExWorld (.ipdb Q)).ipType = IpV4 ∧
    ∀ ip, Walked srcTable.version ip → Says (.ipdb Q) ip (if addrNum ip < 0xffff * 2 ^ 32 + 2 ^ 31 then srcLow else srcHigh) := by
  have hok : RowsOK srcTable := by decide +kernel
  have hj := (goMeta goEx_world srcTable.version srcTable.fields).mpr src_texts
  obtain ⟨bytes, e1, k1⟩ := opened_packed (knows_converter goExWorld fuel) hok (by decide +kernel) (by decide +kernel) (by decide) hj
  obtain ⟨b2, e2, k2⟩ := Ipdb.C20_version goExWorld.fmtDate hok hj
  obtain ⟨b3, e3, k3⟩ := Ipdb.opens hok hj
  rw [e1] at e2 e3
  obtain rfl := Res.ok.inj e2
  obtain rfl := Res.ok.inj e3
  have hlen : ∀ b, Ipdb.pack goExWorld.encMeta goExWorld.now srcTable = .ok b → b.length < 2 ^ 32 := by
    have : (match Ipdb.pack goExWorld.encMeta goExWorld.now srcTable with | .ok b => decide (b.length < 2 ^ 32) | _ => true) = true := by decide +kernel
    intro b hb
    rw [hb] at this
    exact of_decide_eq_true this
  have hl := hlen _ e1
  obtain ⟨q, a1, a2, a3, a4⟩ := k1 hl
  obtain ⟨r, b1, b2, _⟩ := k2 hl
  obtain ⟨r', c1, _, c2⟩ := k3 hl
  rw [b1] at c1
  obtain rfl := Res.ok.inj c1
  have hnew : NewDb goExWorld (converterFormats goExWorld fuel) (fun n => if n = gs "a.ipdb" then some bytes else none) srcArgs.input = .ok q := by
    unfold NewDb
    rw [show srcArgs.input = gs "a.ipdb" from rfl]
    simp only [if_pos]
    rw [show pathExt (gs "a.ipdb") = gs ".ipdb" by decide +kernel]
    exact a1
  obtain ⟨b', r', Q, g1, g2, rfl, g4, g5⟩ := open_ipdb (by decide +kernel) hnew
  have hb' : bytes = b' := by
    rw [show srcArgs.input = gs "a.ipdb" from rfl, if_pos rfl] at g1
    exact Option.some.inj g1
  subst hb'
  rw [b1] at g2
  obtain rfl := Res.ok.inj g2
  refine ⟨bytes, Q, e1, hnew, ?_, ?_, fun ip hw => ?_⟩
  · obtain ⟨N, S, hmd⟩ := c2.md
    rw [g4, hmd]; rfl
  · show (Q.r.version _).ipType = _
    rw [g4]; exact b2 (by decide)
  · have hs : Supports srcTable.version ip := hw.supports
    rcases src_halves hw with ⟨row, h1, h2, h3, h4⟩ | ⟨row, h1, h2, h3, h4⟩
    · have := a3 ip row hw.1 hs h1 h2
      rw [h3] at this
      rw [h4] at h2
      unfold Covers at h2
      rw [show netEnd ⟨[0, 0, 0, 0], [128, 0, 0, 0]⟩ = 0xffff * 2 ^ 32 + 2 ^ 31 by decide +kernel] at h2
      rw [if_pos h2.2]
      exact ⟨_, this⟩
    · have := a3 ip row hw.1 hs h1 h2
      rw [h3] at this
      rw [h4] at h2
      unfold Covers at h2
      rw [show netLo ⟨[128, 0, 0, 0], [128, 0, 0, 0]⟩ = 0xffff * 2 ^ 32 + 2 ^ 31 by decide +kernel] at h2
      rw [if_neg (by omega)]
      exact ⟨_, this⟩

/-- C110 on the example: the conversion succeeds; the output gives Hangzhou its district and its normalised province, and
gives every American address a Chinese main carrier. -/
theorem goEx_answers (fuel : Nat) (hfuel : fuel ≥ 2 ^ 128) : ∃ fs fs' b,
    converter goExWorld fuel (fun _ => [gs "电信"]) (fun _ => true) fs srcArgs = some (fs', .ok ()) ∧
    fs' (gs "b.ipdb") = some b ∧
    (b.length < 2 ^ 32 → ∃ q, NewDb goExWorld (serverFormats goExWorld fuel) fs' (gs "b.ipdb") = .ok q ∧
      (∃ m, q.query [1, 2, 3, 4] = .ok (⟨gs "中国", gs "华东", gs "浙江", gs "杭州", [], gs "电信", gs "亚洲", []⟩, m)) ∧
      ∃ m, q.query [200, 0, 0, 1] = .ok (⟨gs "美国", [], [], [], [], gs "电信", gs "北美洲", []⟩, m)) := by
  obtain ⟨bytes, Q, _, hnew, hcols, htype, hsays⟩ := goSrc_opened fuel
  have hfam : ∀ ip, Family goExWorld (.ipdb Q) ip ↔ Walked srcTable.version ip := by
    intro ip
    have : dumpLen (OpenDb.versionInfo goExWorld (.ipdb Q)) = dumpLen srcTable.version := by
      unfold dumpLen VersionInfo.IsIpV6
      rw [htype]; rfl
    unfold Family Walked
    rw [this]
  have hv6 : ¬ (OpenDb.versionInfo goExWorld (.ipdb Q)).IsIpV6 = true := by
    unfold VersionInfo.IsIpV6; rw [htype]; decide
  have honly : ∀ ip i, Family goExWorld (.ipdb Q) ip → Says (.ipdb Q) ip i → i = srcLow ∨ i = srcHigh := by
    rintro ip i hf ⟨m, h⟩
    obtain ⟨m', h'⟩ := hsays ip ((hfam ip).mp hf)
    rw [h] at h'
    rw [(Prod.mk.inj (Res.ok.inj h')).1]
    split
    · exact .inl rfl
    · exact .inr rfl
  have hw1 : Family goExWorld (.ipdb Q) [1, 2, 3, 4] := (hfam _).mpr (by unfold Walked; decide +kernel)
  have hw2 : Family goExWorld (.ipdb Q) [200, 0, 0, 1] := (hfam _).mpr (by unfold Walked; decide +kernel)
  have hs1 : Says (.ipdb Q) [1, 2, 3, 4] srcLow := by
    have := hsays [1, 2, 3, 4] ((hfam _).mp hw1)
    rwa [if_pos (by decide +kernel)] at this
  have hs2 : Says (.ipdb Q) [200, 0, 0, 1] srcHigh := by
    have := hsays [200, 0, 0, 1] ((hfam _).mp hw2)
    rwa [if_neg (by decide +kernel)] at this
  have c1 : cleaned srcLow = ⟨gs "中国", [], gs "浙江", gs "杭州", [], gs "电信", gs "亚洲", []⟩ := by decide +kernel
  have c2 : cleaned srcHigh = ⟨gs "美国", [], [], [], [], [], gs "北美洲", []⟩ := by decide +kernel
  have hmain : ∀ A : IpInfo → Prop, (∀ i, A i → i = srcLow ∨ i = srcHigh) → ∀ s m, Carries A s m → m = gs "电信" := by
    rintro A hA s m ⟨hm, i, hi, h1, _⟩
    rcases hA i hi with rfl | rfl
    · rw [← h1, c1]
    · rw [← h1, c2] at hm
      exact absurd hm (by decide +kernel)
  have hA : ∀ F : IP → Prop, (∀ ip i, F ip → Says (.ipdb Q) ip i → i = srcLow ∨ i = srcHigh) →
      ∀ i, (∃ ip, F ip ∧ Says (.ipdb Q) ip i) → i = srcLow ∨ i = srcHigh := fun _ h i ⟨ip, hf, hi⟩ => h ip i hf hi
  obtain ⟨fs', b, r1, r2, _, r3⟩ := C110_ipdb goEx_world fuel hfuel (fun _ => [gs "电信"]) (fun _ => true) _ srcArgs Q hnew (by decide +kernel)
    (by omega) (fun ip hf => ⟨_, hsays ip ((hfam ip).mp hf)⟩) (fun h => absurd h hv6) rfl rfl
    (fun ip i hf h => by rcases honly ip i hf h with rfl | rfl <;> decide +kernel) (fun h => absurd h hv6)
    (fun k => ⟨by simp, fun m => ⟨fun h => by
      rw [List.mem_singleton.mp h]
      exact ⟨by decide +kernel, srcLow, ⟨_, hw1, hs1⟩, by rw [c1]⟩, fun ⟨hm, i, ⟨ip, hf, hi⟩, h⟩ =>
        List.mem_singleton.mpr (hmain _ (hA _ honly) _ m ⟨hm, i, ⟨ip, hf, hi⟩, h, rfl⟩)⟩⟩)
    (by decide +kernel) (by decide +kernel) rfl
  refine ⟨_, fs', b, r1, r2, fun hl => ?_⟩
  obtain ⟨q, q1, q2, _⟩ := r3 hl
  refine ⟨q, q1, ?_, ?_⟩
  · obtain ⟨o, n, k1, _, ⟨f1, f2, f3, f4, f5, f6, f7, f8⟩, _⟩ := q2 _ _ hw1 hs1
    rw [c1] at f1 f2 f3 f4 f5 f6 f8
    refine ⟨maskFor n [1, 2, 3, 4], ?_⟩
    rw [k1]
    have h8 : o.isp = gs "电信" := by
      rcases f8 with ⟨h, _⟩ | ⟨h, _⟩
      · exact absurd (by decide +kernel : gs "电信" ∈ mainCarriers) h
      · exact h
    have : o = ⟨gs "中国", gs "华东", gs "浙江", gs "杭州", [], gs "电信", gs "亚洲", []⟩ := by
      obtain ⟨o1, o2, o3, o4, o5, o6, o7, o8⟩ := o
      simp only at f1 f2 f3 f4 f5 f6 f7 h8
      subst f1 f2 f3 f4 f5 f6 f7 h8
      decide +kernel
    rw [this]
  · obtain ⟨o, n, k1, _, hfin, _⟩ := q2 _ _ hw2 hs2
    have hcar := C95_foreign_carrier _ srcHigh o srcLow hfin (by decide +kernel) ⟨_, hw1, hs1⟩ (by rw [c1]; decide +kernel) (by rw [c1])
    obtain ⟨f1, f2, f3, f4, f5, f6, f7, f8⟩ := hfin
    rw [c2] at f1 f2 f3 f4 f5 f6 f8
    refine ⟨maskFor n [200, 0, 0, 1], ?_⟩
    rw [k1]
    have h8 : o.isp = gs "电信" := by
      rcases f8 with ⟨_, h⟩ | ⟨h, _⟩
      · exact hmain _ (hA _ honly) _ _ h
      · rw [h] at hcar; exact absurd hcar (by decide +kernel)
    have : o = ⟨gs "美国", [], [], [], [], gs "电信", gs "北美洲", []⟩ := by
      obtain ⟨o1, o2, o3, o4, o5, o6, o7, o8⟩ := o
      simp only at f1 f2 f3 f4 f5 f6 f7 h8
      subst f1 f2 f3 f4 f5 f6 f7 h8
      decide +kernel
    rw [this]


theorem goAw_opened (fuel : Nat) : ∃ R, NewDb goExWorld (converterFormats goExWorld fuel) awFs awArgs.input = .ok (.awdb R) ∧
    Awdb.FromBytes awFile.bytes = .ok R ∧ R.md = awFile.md := by
  obtain ⟨R, ho, _, _, _, hm⟩ := Awdb.file_opens awFile_ok
  refine ⟨R, ?_, ho, hm⟩
  unfold NewDb
  rw [show awFs awArgs.input = some awFile.bytes from if_pos rfl]
  simp only []
  rw [show pathExt awArgs.input = gs ".awdb" by decide +kernel]
  unfold NewDbFromBytes
  rw [opener_awdb]
  have hc : Awdb.open_ awFile.bytes = .ok R := by
    obtain ⟨net, l, _, _, _, hf, _⟩ := aw_find ho (goIPv4 8 8 8 8) (by decide) (by decide)
    unfold Awdb.open_ Awdb.Reader.check
    rw [ho, Res.ok_bind, hf]
    split <;> rfl
  simp only [hc, Res.ok_bind, Res.pure_eq, OpenDb.buildCache]


/-- C110 on the example: `200.0.0.1` of 鹏博士 (AS 17964) gets the carrier 联通 of AS 4837, and no AS number. -/
theorem goEx_awdb_answers (fuel : Nat) (hfuel : fuel ≥ 2 ^ 128) : ∃ fs' b,
    converter goExWorld fuel (fun _ => [gs "联通"]) (fun _ => true) awFs awArgs = some (fs', .ok ()) ∧
    fs' (gs "b.ipdb") = some b ∧
    (b.length < 2 ^ 32 → ∃ q m, NewDb goExWorld (serverFormats goExWorld fuel) fs' (gs "b.ipdb") = .ok q ∧
      q.query [200, 0, 0, 1] = .ok (⟨gs "中国", gs "华中", gs "湖南", [], [], gs "联通", [], []⟩, m)) := by
  obtain ⟨R, hnew, ho, hm⟩ := goAw_opened fuel
  have h6 : R.md.ipVersion ≠ 6 := by rw [hm]; decide
  have hfam : ∀ ip, Family goExWorld (.awdb R) ip ↔ ValidIP ip ∧ (To4 ip).isSome := by
    intro ip
    refine and_congr_right fun _ => ?_
    rw [show dumpLen (OpenDb.versionInfo goExWorld (.awdb R)) = 4 from Awdb.dumpLen_four h6]; simp
  have hq : ∀ ip i, ValidIP ip → (To4 ip).isSome → Says (.awdb R) ip i → i = Awdb.infoOf awLow ∨ i = Awdb.infoOf awHigh := by
    rintro ip i hv h4 ⟨m, h⟩
    obtain ⟨net, l, hl, _, _, _, hq, _⟩ := aw_find ho ip hv h4
    have h' : R.Query ip = .ok (i, m) := h
    rw [hq] at h'
    rw [← (Prod.mk.inj (Res.ok.inj h')).1]
    rcases hl with rfl | rfl
    · exact .inl rfl
    · exact .inr rfl
  obtain ⟨n1, l1, _, _, _, _, q1, hl1, _⟩ := aw_find ho [1, 2, 3, 4] (by decide) (by decide)
  obtain ⟨n2, l2, _, _, _, _, q2, _, hl2⟩ := aw_find ho [200, 0, 0, 1] (by decide) (by decide)
  rw [hl1 (by decide +kernel)] at q1
  rw [hl2 (by decide +kernel)] at q2
  have s1 : SaysNoAsn (.awdb R) [1, 2, 3, 4] { country := gs "中国", province := gs "广东", isp := gs "联通" } :=
    ⟨_, ⟨_, q1⟩, by rw [aw_infos.1]⟩
  have s2 : SaysNoAsn (.awdb R) [200, 0, 0, 1] { country := gs "中国", province := gs "湖南", isp := gs "鹏博士" } :=
    ⟨_, ⟨_, q2⟩, by rw [aw_infos.2]⟩
  have c1 : cleaned { country := gs "中国", province := gs "广东", isp := gs "联通" } =
      { country := gs "中国", province := gs "广东", isp := gs "联通" } := by decide +kernel
  have c2 : cleaned { country := gs "中国", province := gs "湖南", isp := gs "鹏博士" } =
      { country := gs "中国", province := gs "湖南", isp := gs "鹏博士" } := by decide +kernel
  have hmain : ∀ F : IP → Prop, (∀ ip, F ip → ValidIP ip ∧ (To4 ip).isSome) → ∀ s m,
      Carries (fun i => ∃ ip, F ip ∧ SaysNoAsn (.awdb R) ip i) s m → m = gs "联通" := by
    rintro F hF s m ⟨hm, i, ⟨ip, hf, j, hj, rfl⟩, h1, _⟩
    rcases hq ip j (hF ip hf).1 (hF ip hf).2 hj with rfl | rfl
    · rw [aw_infos.1] at h1
      rw [← h1]; show (cleaned { country := gs "中国", province := gs "广东", isp := gs "联通" }).isp = _
      rw [c1]
    · rw [aw_infos.2] at h1
      have h1' : (cleaned { country := gs "中国", province := gs "湖南", isp := gs "鹏博士" }).isp = m := h1
      rw [c2] at h1'
      rw [← h1'] at hm
      exact absurd hm (by decide +kernel)
  have hw1 : Family goExWorld (.awdb R) [1, 2, 3, 4] := (hfam _).mpr (by decide)
  have hw2 : Family goExWorld (.awdb R) [200, 0, 0, 1] := (hfam _).mpr (by decide)
  obtain ⟨fs', b, r1, r2, _, r3⟩ := C110_awdb goEx_world fuel hfuel (fun _ => [gs "联通"]) (fun _ => true) awFs awArgs R hnew
    (by decide +kernel) h6
    (fun ip net rec hv h4 h => by
      obtain ⟨net', l, hl, _, _, hf, _⟩ := aw_find ho ip hv h4
      rw [h] at hf
      rw [(Prod.mk.inj (Res.ok.inj hf)).2]
      rcases hl with rfl | rfl <;> decide +kernel)
    (fun ip hv h4 => by
      obtain ⟨net, l, _, _, _, _, h, _⟩ := aw_find ho ip hv h4
      exact ⟨_, _, h⟩) rfl rfl
    (fun ip i hv h4 h => by
      rcases hq ip i hv h4 h with rfl | rfl
      · rw [aw_infos.1]; decide +kernel
      · rw [aw_infos.2]; decide +kernel)
    (fun k => ⟨by simp, fun m => ⟨fun h => by
      rw [List.mem_singleton.mp h]
      exact ⟨by decide +kernel, _, ⟨_, hw1, s1⟩, by rw [c1]⟩, fun ⟨hm, i, hi, h⟩ =>
        List.mem_singleton.mpr (hmain _ (fun ip h => (hfam ip).mp h) _ m ⟨hm, i, hi, h, rfl⟩)⟩⟩)
    (by decide +kernel) (by decide +kernel) rfl (by rw [hm]; exact isText_of (by decide +kernel))
  refine ⟨fs', b, r1, r2, fun hl => ?_⟩
  obtain ⟨q, k1, k2, _⟩ := r3 hl
  obtain ⟨o, n, k3, _, hfin, _⟩ := k2 _ _ hw2 s2
  refine ⟨q, maskFor n [200, 0, 0, 1], k1, ?_⟩
  have hcar := C96_all_main _ _ _ _ _ _ o hfin s2 hw1 s1 (by rw [c1]; decide +kernel)
  obtain ⟨f1, f2, f3, f4, f5, f6, f7, f8⟩ := hfin
  rw [c2] at f1 f2 f3 f4 f5 f6 f8
  rw [k3]
  have h8 : o.isp = gs "联通" := by
    rcases f8 with ⟨_, h⟩ | ⟨h, _⟩
    · exact hmain _ (fun ip h => (hfam ip).mp h) _ _ h
    · rw [h] at hcar; exact absurd hcar (by decide +kernel)
  have : o = ⟨gs "中国", gs "华中", gs "湖南", [], [], gs "联通", [], []⟩ := by
    obtain ⟨o1, o2, o3, o4, o5, o6, o7, o8⟩ := o
    simp only at f1 f2 f3 f4 f5 f6 f7 h8
    subst f1 f2 f3 f4 f5 f6 f7 h8
    decide +kernel
  rw [this]

end Uip.Program
