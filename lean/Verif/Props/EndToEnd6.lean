import Verif.Props.AwdbDump6
/-!
# Property C96 for IPv6 `.awdb` inputs
-/
namespace Uip.Program
open Uip Uip.Spec Uip.Operate
open Uip.Export (sevenFields defaultKeeps Own6 Finds6)
open Uip.Dump (Walked)

/-- The lookup, with no answer for `::ffff:0:0/96`. -/
def only6 (find : Export.Find) : Export.Find := fun a => if (To4 a).isSome then .err .databaseError else find a

theorem only6_ok {find : Export.Find} {a : IP} {p : IPNet × GoMap Str} (h : only6 find a = .ok p) :
    (To4 a).isSome = false ∧ find a = .ok p := by
  unfold only6 at h
  split at h
  · cases h
  · rename_i hn; exact ⟨by simpa using hn, h⟩

theorem only6_of {find : Export.Find} {a : IP} (h : (To4 a).isSome = false) : only6 find a = find a := by
  unfold only6; rw [if_neg (by simp [h])]

theorem only6_own {find : Export.Find} (hf : Finds6 find) : ReturnsOwnNet 16 (only6 find) := by
  intro a c i ha h
  obtain ⟨h4, h⟩ := only6_ok h
  exact hf.own a c i ⟨ha.1, h4⟩ h

theorem only6_coherent {find : Export.Find} (hf : Finds6 find) : Coherent 16 (only6 find) := by
  intro a b c i c' j ha hb h h' hcov
  obtain ⟨h4, h⟩ := only6_ok h
  obtain ⟨h4', h'⟩ := only6_ok h'
  rw [hf.coh a b c i ⟨ha.1, h4⟩ ⟨hb.1, h4'⟩ h hcov] at h'
  obtain ⟨e1, e2⟩ := Prod.mk.inj (Res.ok.inj h')
  exact ⟨e1.symm, e2.symm⟩

theorem buildLoop_le {find find' : Export.Find} (hle : ∀ a p, find' a = .ok p → find a = .ok p) {row : GoMap Str → Res (List Str)} :
    ∀ (fuel : Nat) (m : IP) (acc out : List IpRaw), Export.buildLoop find' row fuel m acc = some (.ok out) →
      Export.buildLoop find row fuel m acc = some (.ok out) := by
  intro fuel
  induction fuel with
  | zero => intro m acc out h; simp [Export.buildLoop] at h
  | succ fuel ih =>
    intro m acc out h
    unfold Export.buildLoop at h ⊢
    cases hf : find' m with
    | err e => rw [hf] at h; simp at h
    | panic => rw [hf] at h; simp at h
    | ok p =>
      obtain ⟨c, info⟩ := p
      rw [hf] at h
      rw [hle m _ hf]
      simp only [] at h ⊢
      cases hr : row info with
      | err e => rw [hr] at h; simp at h
      | panic => rw [hr] at h; simp at h
      | ok values =>
        rw [hr] at h
        simp only [] at h ⊢
        cases hl : LastIP c with
        | err e => rw [hl] at h; simp at h
        | panic => rw [hl] at h; simp at h
        | ok last =>
          rw [hl] at h
          simp only [] at h ⊢
          split at h
          · rename_i hm; rw [if_pos hm]; exact h
          · rename_i hm
            rw [if_neg hm]
            cases hns : NextStart c with
            | err e => rw [hns] at h; simp at h
            | panic => rw [hns] at h; simp at h
            | ok m' => rw [hns] at h; exact ih _ _ _ h

theorem build_le {find find' : Export.Find} (hle : ∀ a p, find' a = .ok p → find a = .ok p) {fuel : Nat} {fm : GoMap Str}
    {fields : List Str} {ept : Option Export.Exporter} {v : VersionInfo} {d : IpData}
    (h : Export.BuildIPData fuel fm fields ept v find' = some (.ok d)) :
    Export.BuildIPData fuel fm fields ept v find = some (.ok d) := by
  obtain ⟨h1, h2, h3⟩ := Dump.build_ok h
  have := buildLoop_le hle _ _ _ _ h3
  unfold Export.BuildIPData
  simp only []
  rw [← h1, this]
  obtain ⟨a, b, c⟩ := d
  simp only at h2
  subst h2
  rfl

/-- **C96 (IPv6).** As C95 for IPv6 `.awdb` files whose network for the last address before `::ffff:0:0` reaches into that
block (otherwise the conversion loses data or never ends, C99), with the same restriction on the keys of the records. -/
theorem C96_awdb_v6 (w : World) (fuel : Nat) (hfuel : fuel ≥ 2 ^ 128) (orders : Nat → List Str) (canCreate : Str → Bool)
    (fs : Fs) (a : Args) (R : Awdb.Reader)
    (hin : NewDb w (converterFormats w fuel) fs a.input = .ok (.awdb R)) (hext : pathExt a.input = gs ".awdb")
    (h6 : R.md.ipVersion = 6)
    (hkeys : ∀ ip net rec, Family w (.awdb R) ip → R.Find ip = .ok (net, rec) → mapGet rec (gs "asn") = none ∧ mapGet rec [] = none)
    (hall : ∀ ip, Family w (.awdb R) ip → ∃ i, Says (.awdb R) ip i)
    (hcross : ∃ i m, (OpenDb.awdb R).query belowMapped = .ok (i, m) ∧ m ≤ 95)
    (hrule : a.rule = gs "default") (hline : a.line = [])
    (hplain : ∀ ip i, Family w (.awdb R) ip → Says (.awdb R) ip i → Plainly i)
    (huni : ∃ ip ip' i i', Family w (.awdb R) ip ∧ Family w (.awdb R) ip' ∧
      Says (.awdb R) ip i ∧ Says (.awdb R) ip' i' ∧ i.country ≠ i'.country)
    (hord : AnswerOrders (fun i => ∃ ip, Family w (.awdb R) ip ∧ SaysNoAsn (.awdb R) ip i) orders)
    (ho : (0x2C : UInt8) ∉ a.output) (he : pathExt a.output = gs ".ipdb") (hcc : canCreate a.output = true)
    (hmeta : Ipdb.MetaRoundTrip w.encMeta w.decMeta (Ipdb.buildMeta w.now (OpenDb.versionInfo w (.awdb R)) sevenFields)) :
    ∃ fs' b, converter w fuel orders canCreate fs a = some (fs', .ok ()) ∧
      fs' a.output = some b ∧ (∀ n ≠ a.output, fs' n = fs n) ∧
      (b.length < 2 ^ 32 → ∃ q, NewDb w (serverFormats w fuel) fs' a.output = .ok q ∧
        (∀ ip i, Family w (.awdb R) ip → SaysNoAsn (.awdb R) ip i → ∃ o n, q.query ip = .ok (o, maskFor n ip) ∧
          Covers n (addrNum ip) ∧ Finished (fun i => ∃ ip, Family w (.awdb R) ip ∧ SaysNoAsn (.awdb R) ip i) i o ∧
          ∀ ip', Family w (.awdb R) ip' → Covers n (addrNum ip') → ∃ i', SaysNoAsn (.awdb R) ip' i' ∧
            Finished (fun i => ∃ ip, Family w (.awdb R) ip ∧ SaysNoAsn (.awdb R) ip i) i' o) ∧
        (∀ ip, ¬ Family w (.awdb R) ip → q.query ip = .err .databaseError)) := by
  obtain ⟨bytes, hfs, hop, hfb⟩ := open_awdb hext hin
  have hl : dumpLen (OpenDb.versionInfo w (.awdb R)) = 16 := Awdb.dumpLen_six h6
  have hf6 : Finds6 R.Find := Awdb.finds6 (Awdb.opened hfb).start
  have hown : ReturnsOwnNet (dumpLen (OpenDb.versionInfo w (.awdb R))) (only6 R.Find) := by
    rw [hl]; exact only6_own hf6
  have hcoh : Coherent (dumpLen (OpenDb.versionInfo w (.awdb R))) (only6 R.Find) := by
    rw [hl]; exact only6_coherent hf6
  obtain ⟨e, e1, e2, e3⟩ := default_export
  have hfam : ∀ ip, Family w (.awdb R) ip ↔ ValidIP ip ∧ (To4 ip).isSome = false := by
    intro ip
    refine and_congr_right fun _ => ?_
    rw [hl]; simp
  have hfound : ∀ ip j m, Family w (.awdb R) ip → (OpenDb.awdb R).query ip = .ok (j, m) → ∃ c rec, only6 R.Find ip = .ok (c, rec) ∧
      m = (maskSize c.mask).1 ∧
      e.Export (Export.Select Awdb.CommonFieldsMap e.fields) rec = .ok (vals (ruled { j with asn := [] })) := by
    intro ip j m hv h
    have h' : R.Query ip = .ok (j, m) := h
    unfold Awdb.Reader.Query at h'
    obtain ⟨⟨c, rec⟩, g1, g2⟩ := Res.bind_eq_ok.mp h'
    obtain ⟨g3, g4⟩ := Prod.mk.inj (Res.ok.inj g2)
    refine ⟨c, rec, by rw [only6_of ((hfam ip).mp hv).2]; exact g1, g4.symm, ?_⟩
    obtain ⟨n1, n2⟩ := hkeys ip c rec hv g1
    have key : ∀ f k, mapGet Awdb.CommonFieldsMap f = some k → ruleValue Awdb.CommonFieldsMap rec f = Awdb.strAt rec k := by
      intro f k hk; unfold ruleValue Awdb.strAt; rw [hk]
    have hd : ruleValue Awdb.CommonFieldsMap rec (gs "district") = [] := by
      unfold ruleValue
      rw [show mapGet Awdb.CommonFieldsMap (gs "district") = none by decide +kernel, n2]; rfl
    have ha : ruleValue Awdb.CommonFieldsMap rec (gs "asn") = [] := by
      rw [key _ (gs "asn") (by decide +kernel)]
      unfold Awdb.strAt; rw [n1]; rfl
    rw [e3, key (gs "country") (gs "country") (by decide +kernel), key (gs "province") (gs "province") (by decide +kernel),
      key (gs "city") (gs "city") (by decide +kernel), key (gs "isp") (gs "isp") (by decide +kernel), ha,
      key (gs "continent") (gs "continent") (by decide +kernel), hd, ← keeps_ruled, ← g3]
  have hall' : ∀ ip, Walked (OpenDb.versionInfo w (.awdb R)) ip → ∃ c m i, only6 R.Find ip = .ok (c, m) ∧
      SaysNoAsn (.awdb R) ip i ∧ e.Export (Export.Select Awdb.CommonFieldsMap e.fields) m = .ok (vals (ruled i)) := by
    intro ip hw
    obtain ⟨j, m, hj⟩ := hall ip hw
    obtain ⟨c, rec, g1, _, g2⟩ := hfound ip j m hw hj
    exact ⟨c, rec, _, g1, ⟨j, ⟨m, hj⟩, rfl⟩, g2⟩
  obtain ⟨D, hD⟩ := build_total (fm := Awdb.CommonFieldsMap) (fields := Awdb.Fields) (ept := some e) hown hcoh
    (fun i => ⟨_, e3 Awdb.CommonFieldsMap i⟩)
    (fun ip hw => by obtain ⟨c, m, _, h, _⟩ := hall' ip hw; exact ⟨c, m, h⟩)
    (fun _ => by
      obtain ⟨i, m, h1, h2⟩ := hcross
      obtain ⟨c, rec, g1, g2, _⟩ := hfound _ i m ((hfam _).mpr (by decide +kernel)) h1
      refine ⟨c, rec, g1, ?_⟩
      obtain ⟨k1, k2, k3⟩ := only6_own hf6 belowMapped c rec (by decide +kernel) g1
      have hzn : addrNum belowMapped = 0xffff * 2 ^ 32 - 1 := by decide +kernel
      rw [hzn] at k3
      have hb := (WFNet_bounds k1).1
      have e' : netEnd c = netLo c + 2 ^ hostBits c := rfl
      have hm : pfx c ≤ 95 := by
        have := maskSize_of_IsMask k1.1.2.2
        rw [g2, this] at h2
        exact h2
      have hh : 33 ≤ hostBits c := by unfold hostBits; rw [k2]; omega
      unfold Covers at k3 ⊢
      have hd : (2 : Nat) ^ 33 ∣ 0x7fff * 2 ^ 33 := ⟨0x7fff, by decide⟩
      rcases laminar hd hb hh with h | h | h <;> omega)
  have hD' := hD fuel hfuel
  have hdes : Describes (OpenDb.versionInfo w (.awdb R)) (SaysNoAsn (.awdb R)) D := by
    refine build_describes e2 hown hcoh hall' ?_ ?_ hD'
    · intro ip c m hf h
      exact (hfam ip).mpr ⟨hf.1, (only6_ok h).1⟩
    · rintro ip i j ⟨i', ⟨m, h1⟩, rfl⟩ ⟨j', ⟨m', h2⟩, rfl⟩
      rw [h1] at h2
      rw [(Prod.mk.inj (Res.ok.inj h2)).1]
  have hdumps : Dumps w fuel fs a (capOf w (some e)) D := by
    refine ⟨bytes, _, hfs, by rw [hext]; exact dumper_awdb w fuel, ?_⟩
    simp only [hrule, ruleText, if_true, e1]
    unfold Awdb.dump
    rw [hop]
    show withSlices _ (Export.BuildIPData fuel Awdb.CommonFieldsMap Awdb.Fields (some e) (OpenDb.versionInfo w (.awdb R)) R.Find) = _
    rw [build_le (fun a p h => (only6_ok h).2) hD']
    rfl
  refine convert_answers hdes hdumps ?_ (fun _ => ?_) hline hord ho he hcc hmeta
  · rintro i ⟨ip, h1, j, h2, rfl⟩
    have := hplain ip j h1 h2
    intro u hu
    simp only [List.mem_cons, List.not_mem_nil, or_false] at hu
    rcases hu with h | h | h | h | h | h | h
    · exact this u (by simp [h])
    · exact this u (by simp [h])
    · exact this u (by simp [h])
    · exact this u (by simp [h])
    · rw [h]; decide
    · exact this u (by simp [h])
    · exact this u (by simp [h])
  · obtain ⟨ip, ip', i, i', g1, g2, g3, g4, g5⟩ := huni
    exact ⟨_, _, ⟨ip, g1, i, g3, rfl⟩, ⟨ip', g2, i', g4, rfl⟩, g5⟩

end Uip.Program
