import Verif.Props.Converter
import Verif.Props.AwdbFile
import Verif.Props.Export
import Verif.Spec.EndToEnd
/-!
# Properties C95, C96: what a conversion makes of the answers of a database

`converter -i input.ipdb -o output.ipdb` (and `.awdb` inputs) with the default rule, from the answers of the input to the
answers of the output.  Vocabulary: `Verif/Spec/EndToEnd.lean`.
-/
namespace Uip.Program
open Uip Uip.Spec Uip.Operate
open Uip.Export (sevenFields defaultKeeps)
open Uip.Dump (Walked)

/-- The seven values of an answer, in the order of the default rule. -/
def vals (i : IpInfo) : List Str := [i.country, i.province, i.city, i.isp, i.asn, i.continent, i.district]

theorem keeps_ruled (i : IpInfo) :
    defaultKeeps i.country i.province i.city i.isp i.asn i.continent i.district = vals (ruled i) := by
  unfold defaultKeeps ruled
  split
  · rfl
  · split <;> rfl

theorem norm_seven (T : GoMap (GoMap Str)) (c : IPNet) (x1 x2 x3 x4 x5 x6 x7 : Str) :
    normRow T sevenFields ⟨c, [x1, x2, x3, x4, x5, x6, x7]⟩ = ⟨c, [normValue T (some (gs "country")) x1,
      normValue T (some (gs "province")) x2, normValue T (some (gs "city")) x3, normValue T (some (gs "isp")) x4,
      normValue T (some (gs "asn")) x5, normValue T (some (gs "continent")) x6, normValue T (some (gs "district")) x7]⟩ := rfl

theorem norm_vals (c : IPNet) (i : IpInfo) : normRow NormalizedMap sevenFields ⟨c, vals i⟩ = ⟨c, vals (named i)⟩ := by
  unfold vals named; rw [norm_seven]

theorem off_isp : Offset fISP sevenFields = some 3 := by decide +kernel
theorem off_asn : Offset fAsn sevenFields = some 4 := by decide +kernel
theorem off_province : Offset fProvince sevenFields = some 1 := by decide +kernel
theorem off_country : Offset fCountry sevenFields = some 0 := by decide +kernel
theorem off_district : Offset fDistrict sevenFields = some 6 := by decide +kernel

theorem val_isp (c : IPNet) (i : IpInfo) : fieldVal sevenFields fISP ⟨c, vals i⟩ = some i.isp := by
  unfold fieldVal; rw [off_isp]; rfl
theorem val_asn (c : IPNet) (i : IpInfo) : fieldVal sevenFields fAsn ⟨c, vals i⟩ = some i.asn := by
  unfold fieldVal; rw [off_asn]; rfl
theorem val_province (c : IPNet) (i : IpInfo) : fieldVal sevenFields fProvince ⟨c, vals i⟩ = some i.province := by
  unfold fieldVal; rw [off_province]; rfl
theorem val_country (c : IPNet) (i : IpInfo) : fieldVal sevenFields fCountry ⟨c, vals i⟩ = some i.country := by
  unfold fieldVal; rw [off_country]; rfl

theorem info_vals (i : IpInfo) : infoOf sevenFields (vals i) = { i with continent := spellContinent i.continent, line := [] } := by
  have h : ∀ (names : List Str) (a b c d e f g : Str), attr names sevenFields [a, b, c, d, e, f, g] =
      (((([(gs "country", a), (gs "province", b), (gs "city", c), (gs "isp", d), (gs "asn", e), (gs "continent", f),
        (gs "district", g)] : List (Str × Str)).filter (fun p => decide (p.1 ∈ names))).getLast?.map (·.2)).getD []) := by
    intros; rfl
  unfold infoOf vals
  simp only [h]
  simp +decide

/-- What a dump of the seven fields has to say about the answers of the database it comes from. -/
structure Describes (v : VersionInfo) (K : IP → IpInfo → Prop) (D : IpData) : Prop where
  fields : D.fields = sevenFields
  version : D.version = v
  tiles : Tiles (famLo (dumpLen v)) (D.ips.map (·.cidr)) (famEnd (dumpLen v))
  wf : ∀ x ∈ D.ips, WFNet x.cidr ∧ x.cidr.ip.length = dumpLen v
  row : ∀ x ∈ D.ips, ∀ ip, Walked v ip → Covers x.cidr (addrNum ip) → ∃ i, K ip i ∧ x.values = vals (ruled i)
  from_ : ∀ x ∈ D.ips, ∃ ip, Walked v ip ∧ Covers x.cidr (addrNum ip)
  one : ∀ ip i j, K ip i → K ip j → i = j

section core
variable {v : VersionInfo} {W : IP → Prop} {K : IP → IpInfo → Prop} {D : IpData}

/-- The answers of the database for the addresses `W`. -/
abbrev AnswersOn (W : IP → Prop) (K : IP → IpInfo → Prop) : IpInfo → Prop := fun i => ∃ ip, W ip ∧ K ip i

/-- The answers of the database for the addresses that are dumped. -/
abbrev Answers (v : VersionInfo) (K : IP → IpInfo → Prop) : IpInfo → Prop := AnswersOn (Walked v) K

/-- The same as `Describes` for a dump that goes through the addresses `W`. -/
structure DescribesOn (v : VersionInfo) (W : IP → Prop) (K : IP → IpInfo → Prop) (D : IpData) : Prop where
  fields : D.fields = sevenFields
  version : D.version = v
  rows : D.ips ≠ []
  wf : ∀ x ∈ D.ips, WFNet x.cidr
  disjoint : DisjointRows (rowsOf D)
  row : ∀ x ∈ D.ips, ∀ ip, W ip → Covers x.cidr (addrNum ip) → ∃ i, K ip i ∧ x.values = vals (ruled i)
  from_ : ∀ x ∈ D.ips, ∃ ip, W ip ∧ Covers x.cidr (addrNum ip)
  covers : ∀ ip, W ip → ∃ x ∈ D.ips, Covers x.cidr (addrNum ip)
  one : ∀ ip i j, K ip i → K ip j → i = j

theorem Describes.on (h : Describes v K D) : DescribesOn v (Walked v) K D := by
  refine ⟨h.fields, h.version, fun he => ?_, fun r hr => (h.wf r hr).1, disjoint_iff.mpr (Dump.tiles_disjoint h.tiles), h.row,
    h.from_, fun ip hw => ?_, h.one⟩
  · have := h.tiles
    rw [he] at this
    have e : famLo (dumpLen v) = famEnd (dumpLen v) := this
    unfold famLo famEnd at e
    split at e <;> simp at e
  · obtain ⟨n, hn, hc⟩ := ((tiles_covers h.tiles).2 (addrNum ip)).mpr hw.inFam.2
    obtain ⟨x, hx, rfl⟩ := List.mem_map.mp hn
    exact ⟨x, hx, hc⟩

theorem DescribesOn.val (h : DescribesOn v W K D) : ∀ x ∈ D.ips, ∃ i, AnswersOn W K i ∧ x.values = vals (ruled i) := by
  intro x hx
  obtain ⟨ip, hw, hc⟩ := h.from_ x hx
  obtain ⟨i, hk, hv⟩ := h.row x hx ip hw hc
  exact ⟨i, ⟨ip, hw, hk⟩, hv⟩

theorem DescribesOn.covering (h : DescribesOn v W K D) {ip : IP} {i : IpInfo} (hw : W ip) (hk : K ip i) :
    ∃ x ∈ D.ips, Covers x.cidr (addrNum ip) ∧ x.values = vals (ruled i) := by
  obtain ⟨x, hx, hc⟩ := h.covers ip hw
  obtain ⟨j, hj, hv⟩ := h.row x hx ip hw hc
  rw [h.one ip i j hk hj]
  exact ⟨x, hx, hc, hv⟩

theorem DescribesOn.table (h : DescribesOn v W K D) (hp : ∀ i, AnswersOn W K i → Plainly i)
    (hu : (∃ y, y < 2 ^ 128 ∧ ∀ x ∈ D.ips, ¬ Covers x.cidr y) ∨
      ∃ i j, AnswersOn W K i ∧ AnswersOn W K j ∧ i.country ≠ j.country) : Table D := by
  have hval := h.val
  have hrow : ∀ ip i, W ip → K ip i → ∃ x ∈ D.ips, x.values = vals (ruled i) := by
    intro ip i hw hk
    obtain ⟨x, hx, _, hv⟩ := h.covering hw hk
    exact ⟨x, hx, hv⟩
  have hplain : ∀ i, Plainly i → ∀ u ∈ vals (ruled i), u.length ≤ 255 ∧ (0x09 : UInt8) ∉ u := by
    intro i hi u hu
    have h0 : (([] : Str)).length ≤ 255 ∧ (0x09 : UInt8) ∉ ([] : Str) := by decide
    have key : u = [] ∨ u ∈ [i.country, i.province, i.city, i.isp, i.asn, i.continent, i.district] := by
      unfold ruled at hu
      split at hu
      · simp only [vals, List.mem_cons, List.not_mem_nil, or_false] at hu ⊢
        rcases hu with h | h | h | h | h | h | h <;> simp [h]
      · split at hu
        · simp only [vals, List.mem_cons, List.not_mem_nil, or_false] at hu ⊢
          rcases hu with h | h | h | h | h | h | h <;> simp [h]
        · exact .inr hu
    rcases key with rfl | hk
    · exact h0
    · exact hi u hk
  refine
    { nodup := by rw [h.fields]; decide +kernel
      province := by rw [h.fields]; decide +kernel
      usable := by rw [h.fields]; exact ⟨3, 4, off_isp, off_asn, by decide, by decide⟩
      continent := by rw [h.fields]; decide +kernel
      rows := h.rows
      wf := h.wf
      disjoint := h.disjoint
      len := fun r hr => by
        obtain ⟨i, _, hv⟩ := hval r hr
        rw [hv, h.fields]; rfl
      modest := ⟨by rw [h.fields]; decide, ?_, ?_⟩
      notUniform := ?_ }
  · intro r hr u hu
    obtain ⟨i, hi, hv⟩ := hval r hr
    rw [hv] at hu
    exact (hplain i (hp i hi) u hu).1
  · intro r hr u hu
    obtain ⟨i, hi, hv⟩ := hval r hr
    rw [hv] at hu
    exact (hplain i (hp i hi) u hu).2
  · rcases hu with ⟨y, h1, h2⟩ | ⟨i, j, ⟨a, ha, hi⟩, ⟨b, hb, hj⟩, hne⟩
    · exact .inl ⟨y, h1, h2⟩
    · right
      obtain ⟨x, hx, hxv⟩ := hrow a i ha hi
      obtain ⟨y, hy, hyv⟩ := hrow b j hb hj
      refine ⟨x, hx, y, hy, ?_⟩
      rw [h.fields, fieldVal_values (x := x) (y := ⟨x.cidr, vals (ruled i)⟩) hxv,
        fieldVal_values (x := y) (y := ⟨y.cidr, vals (ruled j)⟩) hyv, val_country, val_country]
      have hr : ∀ k, (ruled k).country = k.country := by
        intro k; unfold ruled; split
        · rfl
        · split <;> rfl
      rw [hr, hr]
      exact fun e => hne (Option.some.inj e)

theorem DescribesOn.normed (h : DescribesOn v W K D) {x : IpRaw} {i : IpInfo} (hv : x.values = vals (ruled i)) :
    normRow NormalizedMap D.fields x = ⟨x.cidr, vals (cleaned i)⟩ := by
  obtain ⟨c, w⟩ := x
  subst hv
  rw [h.fields]
  exact norm_vals c (ruled i)

theorem DescribesOn.carries (h : DescribesOn v W K D) (s m : Str) :
    CarrierOf D.fields (D.ips.map (normRow NormalizedMap D.fields)) s m ↔ Carries (AnswersOn W K) s m := by
  unfold CarrierOf Carries
  refine and_congr_right fun _ => ⟨?_, ?_⟩
  · rintro ⟨y, hy, h1, h2⟩
    obtain ⟨x, hx, rfl⟩ := List.mem_map.mp hy
    obtain ⟨i, hi, hv⟩ := h.val x hx
    rw [h.normed hv, h.fields, val_isp] at h1
    rw [h.normed hv, h.fields, val_asn] at h2
    exact ⟨i, hi, Option.some.inj h1, Option.some.inj h2⟩
  · rintro ⟨i, ⟨ip, hw, hk⟩, h1, h2⟩
    obtain ⟨x, hx, _, hv⟩ := h.covering hw hk
    refine ⟨_, List.mem_map.mpr ⟨x, hx, rfl⟩, ?_, ?_⟩
    · rw [h.normed hv, h.fields, val_isp, h1]
    · rw [h.normed hv, h.fields, val_asn, h2]

theorem converted_vals (h : DescribesOn v W K D) (i : IpInfo) :
    converted D (vals i) = { i with district := districtOf i.province, continent := spellContinent i.continent, line := [] } := by
  unfold converted
  rw [h.fields, val_province]
  have e1 : addField sevenFields fDistrict = sevenFields := by decide +kernel
  rw [e1]
  unfold setOrAdd
  rw [off_district]
  exact info_vals { i with district := districtOf i.province }

theorem DescribesOn.finished (h : DescribesOn v W K D) {x x' : IpRaw} {i : IpInfo} (hv : x.values = vals (ruled i))
    (hs : Settled D x x') : Finished (AnswersOn W K) i (converted D x'.values) := by
  unfold Settled at hs
  rw [h.normed hv] at hs
  unfold MovedIsp at hs
  simp only [h.carries] at hs
  rw [h.fields, val_isp, val_asn] at hs
  rcases hs with ⟨u, s, m, h1, h2, h3, h4, rfl⟩ | ⟨rfl, hn⟩
  · have h1 := Option.some.inj h1
    have h3 := Option.some.inj h3
    subst h1; subst h3
    have e : (setField sevenFields fISP m ⟨x.cidr, vals (cleaned i)⟩).values = vals { cleaned i with isp := m } := by
      generalize cleaned i = j
      unfold setField; rw [off_isp]; rfl
    rw [e, converted_vals h]
    unfold Finished
    generalize cleaned i = j at *
    exact ⟨rfl, rfl, rfl, rfl, rfl, rfl, rfl, .inl ⟨h2, h4⟩⟩
  · rw [converted_vals h]
    unfold Finished
    generalize cleaned i = j at *
    refine ⟨rfl, rfl, rfl, rfl, rfl, rfl, rfl, .inr ⟨rfl, ?_⟩⟩
    by_cases hm : j.isp ∈ mainCarriers
    · exact .inl hm
    · exact .inr fun m hm' => hn ⟨_, _, m, rfl, hm, rfl, hm'⟩

/-- The orders in which a Go run may go through the main carriers met among the cleaned answers (C64). -/
def AnswerOrders (A : IpInfo → Prop) (orders : Nat → List Str) : Prop :=
  ∀ k, (orders k).Nodup ∧ ∀ m, m ∈ orders k ↔ m ∈ mainCarriers ∧ ∃ i, A i ∧ (cleaned i).isp = m

theorem DescribesOn.orders (h : DescribesOn v W K D) {orders : Nat → List Str} (ho : AnswerOrders (AnswersOn W K) orders) :
    CarrierOrders NormalizedMap D orders := by
  intro k
  refine ⟨(ho k).1, fun m => ((ho k).2 m).trans (and_congr_right fun _ => ⟨?_, ?_⟩)⟩
  · rintro ⟨i, ⟨ip, hw, hk⟩, h1⟩
    obtain ⟨x, hx, _, hv⟩ := h.covering hw hk
    exact ⟨_, List.mem_map.mpr ⟨x, hx, rfl⟩, by rw [h.normed hv, h.fields, val_isp, h1]⟩
  · rintro ⟨y, hy, h1⟩
    obtain ⟨x, hx, rfl⟩ := List.mem_map.mp hy
    obtain ⟨i, hi, hv⟩ := h.val x hx
    rw [h.normed hv, h.fields, val_isp] at h1
    exact ⟨i, hi, Option.some.inj h1⟩

/-- A conversion of a database that has the answers `K` for the addresses `W`. -/
theorem convert_on {w : World} {fuel : Nat} {orders : Nat → List Str} {canCreate : Str → Bool} {fs : Fs} {a : Args}
    {cap : Nat → Nat} (h : DescribesOn v W K D) (hin : Dumps w fuel fs a cap D) (hp : ∀ i, AnswersOn W K i → Plainly i)
    (hu : (∃ y, y < 2 ^ 128 ∧ ∀ x ∈ D.ips, ¬ Covers x.cidr y) ∨
      ∃ i j, AnswersOn W K i ∧ AnswersOn W K j ∧ i.country ≠ j.country) (hline : a.line = [])
    (hord : AnswerOrders (AnswersOn W K) orders)
    (ho : (0x2C : UInt8) ∉ a.output) (he : pathExt a.output = gs ".ipdb") (hcc : canCreate a.output = true)
    (hmeta : Ipdb.MetaRoundTrip w.encMeta w.decMeta (Ipdb.buildMeta w.now v sevenFields)) :
    ∃ fs' b, converter w fuel orders canCreate fs a = some (fs', .ok ()) ∧
      fs' a.output = some b ∧ (∀ n ≠ a.output, fs' n = fs n) ∧
      (b.length < 2 ^ 32 → ∃ q, NewDb w (serverFormats w fuel) fs' a.output = .ok q ∧
        (∀ ip i, ValidIP ip → W ip → Supports v ip → K ip i → ∃ o n, q.query ip = .ok (o, maskFor n ip) ∧ Covers n (addrNum ip) ∧
          Finished (AnswersOn W K) i o ∧
          ∀ ip', W ip' → Covers n (addrNum ip') → ∃ i', K ip' i' ∧ Finished (AnswersOn W K) i' o) ∧
        (∀ ip, (¬ ValidIP ip ∨ ¬ Supports v ip ∨ ∀ x ∈ D.ips, ¬ Covers x.cidr (addrNum ip)) → q.query ip = .err .databaseError)) := by
  have e1 : addField sevenFields fDistrict = sevenFields := by decide +kernel
  obtain ⟨fs', b, c1, c2, c3, c4⟩ := C64_convert w fuel orders canCreate fs a cap D hin (h.table hp hu) hline (h.orders hord)
    ho he hcc (by rw [h.fields, e1, h.version]; exact hmeta)
  refine ⟨fs', b, c1, c2, c3, fun hb => ?_⟩
  obtain ⟨q, o1, o2, o3⟩ := c4 hb
  refine ⟨q, o1, fun ip i hv hw hs hk => ?_, fun ip hn => o3 ip (by rw [h.version]; exact hn)⟩
  obtain ⟨x, hx, hc, hv'⟩ := h.covering hw hk
  obtain ⟨x', n, g1, g2, g3, g4⟩ := o2 ip x hv (by rw [h.version]; exact hs) hx hc
  refine ⟨_, n, g4, g2, h.finished hv' g1, fun ip' hw' hc' => ?_⟩
  obtain ⟨z, hz, hcz, z', hz', hvz⟩ := g3 _ hc'
  obtain ⟨i', hk', hvi⟩ := h.row z hz ip' hw' hcz
  refine ⟨i', hk', ?_⟩
  rw [← hvz]
  exact h.finished hvi hz'

/-- A conversion of a database that has the answers `K`. -/
theorem convert_answers {w : World} {fuel : Nat} {orders : Nat → List Str} {canCreate : Str → Bool} {fs : Fs} {a : Args}
    {cap : Nat → Nat} (h : Describes v K D) (hin : Dumps w fuel fs a cap D) (hp : ∀ i, Answers v K i → Plainly i)
    (hu : dumpLen v = 16 → ∃ i j, Answers v K i ∧ Answers v K j ∧ i.country ≠ j.country) (hline : a.line = [])
    (hord : AnswerOrders (Answers v K) orders)
    (ho : (0x2C : UInt8) ∉ a.output) (he : pathExt a.output = gs ".ipdb") (hcc : canCreate a.output = true)
    (hmeta : Ipdb.MetaRoundTrip w.encMeta w.decMeta (Ipdb.buildMeta w.now v sevenFields)) :
    ∃ fs' b, converter w fuel orders canCreate fs a = some (fs', .ok ()) ∧
      fs' a.output = some b ∧ (∀ n ≠ a.output, fs' n = fs n) ∧
      (b.length < 2 ^ 32 → ∃ q, NewDb w (serverFormats w fuel) fs' a.output = .ok q ∧
        (∀ ip i, Walked v ip → K ip i → ∃ o n, q.query ip = .ok (o, maskFor n ip) ∧ Covers n (addrNum ip) ∧
          Finished (Answers v K) i o ∧
          ∀ ip', Walked v ip' → Covers n (addrNum ip') → ∃ i', K ip' i' ∧ Finished (Answers v K) i' o) ∧
        (∀ ip, ¬ Walked v ip → q.query ip = .err .databaseError)) := by
  obtain ⟨fs', b, c1, c2, c3, c4⟩ := convert_on h.on hin hp (by
    rcases Export.dumpLen_cases v with h4 | h16
    · left
      refine ⟨0, Nat.two_pow_pos _, fun r hr hc => ?_⟩
      have := ((tiles_covers h.tiles).2 0).mp ⟨r.cidr, List.mem_map_of_mem hr, hc⟩
      rw [h4] at this
      unfold famLo at this
      rw [if_pos rfl] at this
      omega
    · exact .inr (hu h16)) hline hord ho he hcc hmeta
  refine ⟨fs', b, c1, c2, c3, fun hb => ?_⟩
  obtain ⟨q, o1, o2, o3⟩ := c4 hb
  refine ⟨q, o1, fun ip i hw hk => o2 ip i hw.1 hw (Dump.Walked.supports hw) hk, fun ip hn => o3 ip ?_⟩
  · by_cases hv : ValidIP ip
    · right
      rcases Export.dumpLen_cases v with h4 | h16
      · right
        intro x hx hc
        have hin := ((tiles_covers h.tiles).2 (addrNum ip)).mp ⟨x.cidr, List.mem_map_of_mem hx, hc⟩
        rw [h4] at hin
        refine hn ⟨hv, ?_⟩
        rw [h4]
        exact iff_of_true ((Ipdb.InFam4_iff hv).mp ⟨hv, hin⟩) rfl
      · left
        intro hs
        have ht : (To4 ip).isSome = true := by
          by_cases ht : (To4 ip).isSome = true
          · exact ht
          · exact absurd ⟨hv, iff_of_false ht (by omega)⟩ hn
        unfold Supports at hs
        rw [if_pos ht] at hs
        apply hs
        unfold dumpLen VersionInfo.IsIpV6 at h16
        by_cases h6 : v.ipType = IpV6
        · exact h6
        · rw [if_neg (by simpa using h6)] at h16; cases h16
    · exact .inl hv

end core

/-! ## Dumps with the default rule -/

/-- The value a rule reads for a field: that of the field's key in the record (of the key `""` for a field without). -/
def ruleValue (fm data : GoMap Str) (f : Str) : Str :=
  match mapGet fm f with
  | some k => (mapGet data k).getD []
  | none => (mapGet data []).getD []

/-- C31 for every record, also one with an empty key. -/
theorem default_export : ∃ e, Export.ParseRule Export.DefaultRule = some e ∧ e.fields = sevenFields ∧ ∀ fm data : GoMap Str,
    e.Export (Export.Select fm e.fields) data = .ok (defaultKeeps (ruleValue fm data (gs "country"))
      (ruleValue fm data (gs "province")) (ruleValue fm data (gs "city")) (ruleValue fm data (gs "isp"))
      (ruleValue fm data (gs "asn")) (ruleValue fm data (gs "continent")) (ruleValue fm data (gs "district"))) := by
  obtain ⟨e, h1, h2, _⟩ := Export.C31_default_rule [] [] rfl
  refine ⟨e, h1, h2, fun fm data => ?_⟩
  have hx : ∀ (c p t i a k s : Str), ∃ fm' data' : GoMap Str, mapGet data' [] = none ∧
      (∀ x, mapGet data' [] = some x → False) ∧
      sevenFields.map (ruleValue fm' data') = [c, p, t, i, a, k, s] ∧
      fieldValue fm' data' (gs "country") = c ∧ fieldValue fm' data' (gs "province") = p ∧
      fieldValue fm' data' (gs "city") = t ∧ fieldValue fm' data' (gs "isp") = i ∧ fieldValue fm' data' (gs "asn") = a ∧
      fieldValue fm' data' (gs "continent") = k ∧ fieldValue fm' data' (gs "district") = s := by
    intro c p t i a k s
    refine ⟨[(gs "country", gs "country"), (gs "province", gs "province"), (gs "city", gs "city"), (gs "isp", gs "isp"),
        (gs "asn", gs "asn"), (gs "continent", gs "continent"), (gs "district", gs "district")],
      [(gs "country", c), (gs "province", p), (gs "city", t), (gs "isp", i),
        (gs "asn", a), (gs "continent", k), (gs "district", s)], ?_, ?_, ?_, ?_, ?_, ?_, ?_, ?_, ?_, ?_⟩ <;>
      simp +decide [fieldValue, mapGet, sevenFields, ruleValue]
  obtain ⟨fm', data', k1, _, k2, v1, v2, v3, v4, v5, v6, v7⟩ := hx (ruleValue fm data (gs "country"))
      (ruleValue fm data (gs "province")) (ruleValue fm data (gs "city")) (ruleValue fm data (gs "isp"))
      (ruleValue fm data (gs "asn")) (ruleValue fm data (gs "continent")) (ruleValue fm data (gs "district"))
  obtain ⟨e', g1, g2, g3⟩ := Export.C31_default_rule fm' data' k1
  rw [h1] at g1
  obtain rfl := Option.some.inj g1
  simp only [v1, v2, v3, v4, v5, v6, v7] at g3
  rw [← g3]
  have hm : ∀ fm data : GoMap Str, e.remapKey (Export.Select fm e.fields) data = .ok (e.fields.map (ruleValue fm data)) :=
    fun fm data => Export.remapKey_spec e fm data
  unfold Export.Exporter.Export
  rw [hm, hm, h2, k2]
  rfl

/-- The last address below `::ffff:0:0/96`. -/
def belowMapped : IP := [0, 0, 0, 0, 0, 0, 0, 0, 0, 0, 0xff, 0xfe, 0xff, 0xff, 0xff, 0xff]

/-- A dump succeeds when every address of the family is answered and, in an IPv6 walk, the network of the last address
below `::ffff:0:0/96` reaches into that block (whose addresses are looked up as IPv4). -/
theorem build_total {fm : GoMap Str} {fields : List Str} {ept : Option Export.Exporter} {v : VersionInfo}
    {find : Export.Find} (hn : ReturnsOwnNet (dumpLen v) find) (hc : Coherent (dumpLen v) find)
    (hrow : ∀ i, ∃ vs, Export.rowValues fm (Export.dumpFields fm fields ept) ept i = .ok vs)
    (hall : ∀ ip, Walked v ip → ∃ c i, find ip = .ok (c, i))
    (hcross : dumpLen v = 16 → ∃ c i, find belowMapped = .ok (c, i) ∧ Covers c (0xffff * 2 ^ 32)) :
    ∃ d, ∀ fuel ≥ 2 ^ 128, Export.BuildIPData fuel fm fields ept v find = some (.ok d) := by
  obtain ⟨out, hout⟩ := Dump.C26_dump_terminates (fieldMap := fm) (fields := fields) (ept := ept) hn
  have h1 := hout (2 ^ 128) (Nat.le_refl _)
  have hok' : ∃ d, out = .ok d := by
    unfold Export.BuildIPData at h1
    simp only [] at h1
    cases hb : Export.buildLoop find (Export.rowValues fm (Export.dumpFields fm fields ept) ept) (2 ^ 128)
        (Export.firstMarker v) [] with
    | none => rw [hb] at h1; cases h1
    | some res =>
      rw [hb] at h1
      simp only [Option.map_some, Option.some.injEq] at h1
      have := Export.buildLoop_succeeds (Export.dumpLen_cases v) hn (P := Walked v)
        (row := Export.rowValues fm (Export.dumpFields fm fields ept) ept)
        (fun a ha => by
          obtain ⟨c, i, hf⟩ := hall a ha
          obtain ⟨vs, hv⟩ := hrow i
          exact ⟨ha.inFam, c, i, vs, hf, hv⟩)
        (fun a c i last ha hf hlast hnot => by
          have hown' := hn a c i ha.inFam hf
          obtain ⟨hlo, hhi, last', hl', hll, _, hnext⟩ := Export.net_end hown'.1 hown'.2.1 (Export.dumpLen_cases v)
          rw [hlast] at hl'
          injection hl' with hl'
          subst hl'
          obtain ⟨hnum, hlt⟩ := hnext hnot
          have hval : ValidIP (NextIP last) := by
            unfold ValidIP; rw [NextIP_length, hll]; exact Export.dumpLen_cases _
          refine ⟨hval, ?_⟩
          rw [To4_isSome_iff hval, hnum]
          have hcov := hown'.2.2
          unfold Covers at hcov
          rcases Export.dumpLen_cases v with h4 | h16
          · rw [h4] at hlo hlt ⊢
            unfold famLo at hlo
            unfold famEnd at hlt
            simp only [if_true] at hlo hlt
            constructor
            · intro _; rfl
            · intro _; omega
          · rw [h16]
            refine ⟨fun hm => ?_, fun h => by cases h⟩
            exfalso
            obtain ⟨C, j, hz, hZ⟩ := hcross h16
            have hzn : addrNum belowMapped = 0xffff * 2 ^ 32 - 1 := by decide +kernel
            have hzf : InFam (dumpLen v) belowMapped := by rw [h16]; decide +kernel
            have hC := hn _ _ _ hzf hz
            have hC2 := hC.2.2
            rw [hzn] at hC2
            unfold Covers at hZ hC2
            have hRend : 0x10000 * 2 ^ 32 ≤ netEnd C := by
              have hb := (WFNet_bounds hC.1).1
              have e : netEnd C = netLo C + 2 ^ hostBits C := rfl
              have hd : (2 : Nat) ^ 32 ∣ 0xffff * 2 ^ 32 := ⟨0xffff, by decide⟩
              rcases Nat.le_total (hostBits C) 32 with hle | hle
              · rcases laminar hb hd hle with h | h | h <;> omega
              · rcases laminar hd hb hle with h | h | h <;> omega
            have hna : ¬ (addrNum a / 2 ^ 32 = 0xffff) := by
              intro h
              have := ha.2.mp ((To4_isSome_iff ha.1).mpr h)
              omega
            have hcz : Covers c (addrNum belowMapped) := by
              rw [hzn]; unfold Covers
              omega
            obtain ⟨e1, _⟩ := hc a belowMapped c i C j ha.inFam hzf hf hz hcz
            rw [e1] at hRend
            omega)
        (2 ^ 128) _ [] res (by
          have h := (Export.firstMarker_spec v).1
          refine ⟨h.1, ?_⟩
          rw [To4_isSome_iff h.1, (Export.firstMarker_spec v).2]
          unfold famLo
          rcases Export.dumpLen_cases v with h | h <;> rw [h] <;> decide) hb
      obtain ⟨ips, rfl⟩ := this
      exact ⟨_, by rw [← h1]; rfl⟩
  obtain ⟨d, rfl⟩ := hok'
  exact ⟨d, hout⟩

/-- A finished dump under the default rule, and what its rows come from. -/
theorem build_describes {fm : GoMap Str} {fields : List Str} {e : Export.Exporter} (he : e.fields = sevenFields)
    {v : VersionInfo} {find : Export.Find} {fuel : Nat} {D : IpData} {K : IP → IpInfo → Prop}
    (hn : ReturnsOwnNet (dumpLen v) find) (hc : Coherent (dumpLen v) find)
    (hall : ∀ ip, Walked v ip → ∃ c m i, find ip = .ok (c, m) ∧ K ip i ∧
      e.Export (Export.Select fm e.fields) m = .ok (vals (ruled i)))
    (hwalk : ∀ ip c m, InFam (dumpLen v) ip → find ip = .ok (c, m) → Walked v ip)
    (hone : ∀ ip i j, K ip i → K ip j → i = j)
    (h : Export.BuildIPData fuel fm fields (some e) v find = some (.ok D)) : Describes v K D := by
  obtain ⟨hf, hv, _⟩ := Dump.build_ok h
  have hf' : D.fields = e.fields := hf
  obtain ⟨ht, hr⟩ := Dump.build_sound hn hc h
  refine ⟨hf'.trans he, hv, ht, fun x hx => ⟨(hr x hx).1, (hr x hx).2.1⟩, fun x hx ip hw hcv => ?_, fun x hx => ?_, hone⟩
  · obtain ⟨c, m, i, g1, g2, g3⟩ := hall ip hw
    obtain ⟨_, k2⟩ := Dump.C25_dump_values hn hc h ip hw.inFam x hx hcv c m g1
    have k2' : e.Export (Export.Select fm D.fields) m = .ok x.values := k2
    rw [hf', g3] at k2'
    exact ⟨i, g2, (Res.ok.inj k2').symm⟩
  · obtain ⟨hwf, hl, b, m, hb, hfb, _, _⟩ := hr x hx
    exact ⟨b, hwalk b _ _ hb hfb, (hn b _ _ hb hfb).2.2⟩

/-! ## `.ipdb` inputs -/

theorem open_ipdb {w : World} {fuel : Nat} {fs : Fs} {f : Str} {q : OpenDb} (he : pathExt f = gs ".ipdb")
    (h : NewDb w (converterFormats w fuel) fs f = .ok q) : ∃ b r Q, fs f = some b ∧
      Ipdb.newReaderFromBytes w.decMeta b = .ok r ∧ q = .ipdb Q ∧ Q.r = r ∧
      ∀ ip, q.query ip = Ipdb.Querier.Query ⟨r, []⟩ ip := by
  unfold NewDb at h
  cases hb : fs f with
  | none => rw [hb] at h; cases h
  | some b =>
    rw [hb] at h
    simp only [he] at h
    unfold NewDbFromBytes at h
    rw [knows_converter w fuel] at h
    obtain ⟨o, h1, h2⟩ := Res.bind_eq_ok.mp h
    obtain ⟨Q, h3, h4⟩ := Res.bind_eq_ok.mp h1
    obtain rfl := Res.ok.inj h4
    obtain ⟨Q', h5, h6⟩ := Res.bind_eq_ok.mp h2
    obtain rfl := Res.ok.inj h6
    unfold Ipdb.newQuerier at h3
    obtain ⟨r, h7, h8⟩ := Res.bind_eq_ok.mp h3
    obtain rfl := Res.ok.inj h8
    obtain ⟨hr, hs⟩ := (Ipdb.BuildCache_spec _ _ (Ipdb.CacheSound_nil r)).1 _ h5
    exact ⟨b, r, Q', rfl, h7, rfl, hr, fun ip => Ipdb.Query_congr hr (Ipdb.CacheSound_nil r) hs ip⟩

theorem decodeInfo_length {r : Ipdb.Reader} {body : Bytes} {off : Int} {vs : List Str}
    (h : r.decodeInfo body off = .ok vs) : vs.length = r.md.fields.length := by
  unfold Ipdb.Reader.decodeInfo at h
  simp only [] at h
  split at h
  · cases h
  · split at h
    · cases h
    · have hl : (((splitByte 0x09 body).drop off.toNat).take r.md.fields.length).length = r.md.fields.length := by
        rw [List.length_take, List.length_drop]; omega
      split at h
      · rw [← Res.ok.inj h]; exact hl
      · split at h
        · cases h
        · rw [← Res.ok.inj h, List.length_set]; exact hl

/-- An answer of a file with two or more columns comes from a record. -/
theorem query_found {r : Ipdb.Reader} {ip : IP} {i : IpInfo} {m : Nat} (h2 : 2 ≤ r.md.fields.length)
    (h : Ipdb.Querier.Query ⟨r, []⟩ ip = .ok (i, m)) : ∃ map values, r.findMap ip (gs "CN") = .ok (IpNet ip m, map) ∧
      Ipdb.fillMap r.md.fields values [] = .ok map ∧ i = Ipdb.buildInfo r.md.fields values {} ∧
      ∃ n body, r.find0 ip = .ok (n, body, m) := by
  cases hf : r.find0 ip with
  | panic => unfold Ipdb.Querier.Query Ipdb.Querier.QueryInternal at h; rw [hf] at h; cases h
  | err e =>
    exfalso
    rw [Ipdb.Query_find0_err hf] at h
    cases hl : mapGet r.md.languages (gs "CN") with
    | none => rw [hl] at h; cases h
    | some off =>
      rw [hl] at h
      simp only [] at h
      obtain ⟨vs, h3, _⟩ := Res.bind_eq_ok.mp h
      unfold Ipdb.Reader.decodeInfo at h3
      have hl1 : (splitByte 0x09 ([] : Bytes)).length = 1 := rfl
      simp only [] at h3
      split at h3
      · cases h3
      · split at h3
        · cases h3
        · rename_i g1 g2
          rw [hl1] at g1
          omega
  | ok p =>
    obtain ⟨n, body, m'⟩ := p
    rw [Ipdb.Query_find0 hf] at h
    cases hl : mapGet r.md.languages (gs "CN") with
    | none => rw [hl] at h; cases h
    | some off =>
      rw [hl] at h
      simp only [] at h
      obtain ⟨vs, h3, h4⟩ := Res.bind_eq_ok.mp h
      obtain ⟨rfl, rfl⟩ := Prod.mk.inj (Res.ok.inj h4)
      have hlen : vs.length = r.md.fields.length := decodeInfo_length h3
      obtain ⟨map, hm⟩ := Dump.fillMap_total hlen []
      exact ⟨map, vs, Ipdb.findMap_of hl hf h3 hm, hm, rfl, n, body, rfl⟩

theorem ipdb_values {fields values : List Str} {map : GoMap Str} (h : Ipdb.fillMap fields values [] = .ok map) :
    let i := Ipdb.buildInfo fields values {}
    let val := ruleValue Ipdb.CommonFieldsMap map
    val (gs "country") = i.country ∧ val (gs "province") = i.province ∧ val (gs "city") = i.city ∧ val (gs "isp") = i.isp ∧
    val (gs "asn") = i.asn ∧ val (gs "continent") = i.continent ∧ val (gs "district") = i.district := by
  have key : ∀ f k, mapGet Ipdb.CommonFieldsMap f = some k → ruleValue Ipdb.CommonFieldsMap map f =
      Ipdb.lastOf (fun x => decide (x = k)) fields values [] := by
    intro f k hk
    unfold ruleValue
    rw [hk]
    exact (Ipdb.fillMap_get h k [] rfl).1
  intro i val
  refine ⟨(key _ Ipdb.FieldCountryName (by decide +kernel)).trans (Ipdb.buildInfo_country fields values {}).symm,
    (key _ Ipdb.FieldRegionName (by decide +kernel)).trans (Ipdb.buildInfo_province fields values {}).symm,
    (key _ Ipdb.FieldCityName (by decide +kernel)).trans (Ipdb.buildInfo_city fields values {}).symm,
    (key _ Ipdb.FieldISPDomain (by decide +kernel)).trans (Ipdb.buildInfo_isp fields values {}).symm,
    (key _ fAsn (by decide +kernel)).trans (Ipdb.buildInfo_asn fields values {}).symm,
    (key _ Ipdb.FieldContinentCode (by decide +kernel)).trans (Ipdb.buildInfo_continent fields values {}).symm,
    (key _ fDistrict (by decide +kernel)).trans (Ipdb.buildInfo_district fields values {}).symm⟩

theorem dumper_ipdb (w : World) (fuel : Nat) : (converterFormats w fuel).GetDumpFormat (gs ".ipdb") =
    some fun b e => withSlices (capOf w e) (Ipdb.dump fuel w.decMeta w.fmtDate b e) := by
  unfold converterFormats plainInit memipInit ipdbInit awdbInit
  simp only [Registry.RegisterDumpFormat, Registry.RegisterQueryFormat, Registry.RegisterPackFormat,
    Registry.GetDumpFormat, mapGet_mapSet]
  rw [if_neg (by decide +kernel), if_neg (by decide +kernel), if_pos trivial]
  rfl

/-- The family a database is converted in: IPv6 databases in IPv6, all others in IPv4 (`::ffff:a.b.c.d` is an IPv4
address). -/
abbrev Family (w : World) (q : OpenDb) (ip : IP) : Prop := Walked (q.versionInfo w) ip

/-- `q` answers `i` for `ip`. -/
def Says (q : OpenDb) (ip : IP) (i : IpInfo) : Prop := ∃ m, q.query ip = .ok (i, m)

theorem dumpLen16 {v : VersionInfo} (h : dumpLen v = 16) : v.IsIpV6 = true := by
  unfold dumpLen at h
  split at h
  · assumption
  · cases h

/-- The table the converter reads from an `.ipdb` file that answers every address of its family. -/
theorem ipdb_describes {w : World} {fuel : Nat} (hfuel : fuel ≥ 2 ^ 128) {fs : Fs}
    {a : Args} {Q : Ipdb.Querier}
    (hin : NewDb w (converterFormats w fuel) fs a.input = .ok (.ipdb Q)) (hext : pathExt a.input = gs ".ipdb")
    (hcols : 2 ≤ Q.r.md.fields.length)
    (hall : ∀ ip, Family w (.ipdb Q) ip → ∃ i, Says (.ipdb Q) ip i)
    (hcross : (OpenDb.versionInfo w (.ipdb Q)).IsIpV6 = true → ∃ i m, (OpenDb.ipdb Q).query belowMapped = .ok (i, m) ∧ m ≤ 95)
    (hrule : a.rule = gs "default") :
    ∃ D cap, Describes (OpenDb.versionInfo w (.ipdb Q)) (Says (.ipdb Q)) D ∧ Dumps w fuel fs a cap D := by
  obtain ⟨bytes, r, Q', hfs, hr, hq, hQr, hquery⟩ := open_ipdb hext hin
  injection hq with hq
  subst hq
  have hv : OpenDb.versionInfo w (.ipdb Q) = r.version w.fmtDate := by
    show Q.r.version w.fmtDate = _; rw [hQr]
  rw [hQr] at hcols
  have h16 : dumpLen (OpenDb.versionInfo w (.ipdb Q)) = 16 → (OpenDb.versionInfo w (.ipdb Q)).IsIpV6 = true := dumpLen16
  have hco := Ipdb.newReader_cacheOK hr
  obtain ⟨hown, hcoh⟩ := Ipdb.reader_dumpLen hco w.fmtDate
  rw [← hv] at hown hcoh
  obtain ⟨e, e1, e2, e3⟩ := default_export
  have hfound : ∀ ip i m, (OpenDb.ipdb Q).query ip = .ok (i, m) → ∃ map, r.findMap ip (gs "CN") = .ok (IpNet ip m, map) ∧
      e.Export (Export.Select Ipdb.CommonFieldsMap e.fields) map = .ok (vals (ruled i)) ∧
      ∃ n body, r.find0 ip = .ok (n, body, m) := by
    intro ip i m h
    rw [hquery] at h
    obtain ⟨map, values, g1, g2, g3, g4⟩ := query_found hcols h
    refine ⟨map, g1, ?_, g4⟩
    obtain ⟨k1, k2, k3, k4, k5, k6, k7⟩ := ipdb_values g2
    rw [e3, k1, k2, k3, k4, k5, k6, k7, ← g3, keeps_ruled]
  have hall' : ∀ ip, Walked (OpenDb.versionInfo w (.ipdb Q)) ip → ∃ c m i, r.findMap ip (gs "CN") = .ok (c, m) ∧
      Says (.ipdb Q) ip i ∧ e.Export (Export.Select Ipdb.CommonFieldsMap e.fields) m = .ok (vals (ruled i)) := by
    intro ip hw
    obtain ⟨i, m, hi⟩ := hall ip hw
    obtain ⟨map, g1, g2, _⟩ := hfound ip i m hi
    exact ⟨_, map, i, g1, ⟨m, hi⟩, g2⟩
  obtain ⟨D, hD⟩ := build_total (fm := Ipdb.CommonFieldsMap) (fields := r.md.fields) (ept := some e) hown hcoh
    (fun i => ⟨_, e3 Ipdb.CommonFieldsMap i⟩)
    (fun ip hw => by obtain ⟨c, m, _, h, _⟩ := hall' ip hw; exact ⟨c, m, h⟩)
    (fun h => by
      obtain ⟨i, m, h1, h2⟩ := hcross (h16 h)
      obtain ⟨map, g1, _, n, body, g3⟩ := hfound _ i m h1
      refine ⟨_, map, g1, ?_⟩
      have hvb : ValidIP belowMapped := by decide
      obtain ⟨k1, k2, k3, k4⟩ := C04_ip_net belowMapped hvb m (Ipdb.find0_mask hco g3).1
      have hl16 : (IpNet belowMapped m).ip.length = 16 := by rw [k3]; decide +kernel
      have hzn : addrNum belowMapped = 0xffff * 2 ^ 32 - 1 := by decide +kernel
      rw [hzn] at k4
      have hb := (WFNet_bounds k1).1
      have e' : netEnd (IpNet belowMapped m) = netLo (IpNet belowMapped m) + 2 ^ hostBits (IpNet belowMapped m) := rfl
      have hh : 33 ≤ hostBits (IpNet belowMapped m) := by unfold hostBits; rw [k2, hl16]; omega
      unfold Covers at k4 ⊢
      have hd : (2 : Nat) ^ 33 ∣ 0x7fff * 2 ^ 33 := ⟨0x7fff, by decide⟩
      rcases laminar hd hb hh with h | h | h <;> omega)
  have hD' := hD fuel hfuel
  have hdes : Describes (OpenDb.versionInfo w (.ipdb Q)) (Says (.ipdb Q)) D := by
    refine build_describes e2 hown hcoh hall' ?_ ?_ hD'
    · intro ip c m hf h
      refine ⟨hf.1, ?_⟩
      obtain ⟨_, hl, _, h4⟩ := Ipdb.findMap_ownNet hco hf.1 h
      have hl' := (hown ip c m hf h).2.1
      rw [hl] at hl'
      cases hs : (To4 ip).isSome with
      | true => rw [hs] at hl'; exact iff_of_true rfl hl'.symm
      | false =>
        rw [hs] at hl'
        simp only [Bool.false_eq_true, if_false] at hl'
        exact iff_of_false (by simp) (by omega)
    · rintro ip i j ⟨m, h1⟩ ⟨m', h2⟩
      rw [h1] at h2
      exact (Prod.mk.inj (Res.ok.inj h2)).1
  have hdumps : Dumps w fuel fs a (capOf w (some e)) D := by
    refine ⟨bytes, _, hfs, by rw [hext]; exact dumper_ipdb w fuel, ?_⟩
    simp only [hrule, ruleText, if_true, e1]
    rw [Dump.dump_eq hr, ← hv, hD']
    rfl
  exact ⟨D, _, hdes, hdumps⟩

/-- **C95.** Convert any `.ipdb` file the query library opens and that answers every address of its family, with the default
rule and no line file.  The conversion succeeds, writes only the output, and the output answers exactly the addresses of
the family, each with what `Finished` makes of the input's answer, for a network on which that holds throughout. -/
theorem C95_ipdb (w : World) (fuel : Nat) (hfuel : fuel ≥ 2 ^ 128) (orders : Nat → List Str) (canCreate : Str → Bool) (fs : Fs)
    (a : Args) (Q : Ipdb.Querier)
    (hin : NewDb w (converterFormats w fuel) fs a.input = .ok (.ipdb Q)) (hext : pathExt a.input = gs ".ipdb")
    (hcols : 2 ≤ Q.r.md.fields.length)
    (hall : ∀ ip, Family w (.ipdb Q) ip → ∃ i, Says (.ipdb Q) ip i)
    (hcross : (OpenDb.versionInfo w (.ipdb Q)).IsIpV6 = true → ∃ i m, (OpenDb.ipdb Q).query belowMapped = .ok (i, m) ∧ m ≤ 95)
    (hrule : a.rule = gs "default") (hline : a.line = [])
    (hplain : ∀ ip i, Family w (.ipdb Q) ip → Says (.ipdb Q) ip i → Plainly i)
    (huni : (OpenDb.versionInfo w (.ipdb Q)).IsIpV6 = true → ∃ ip ip' i i', Family w (.ipdb Q) ip ∧ Family w (.ipdb Q) ip' ∧
      Says (.ipdb Q) ip i ∧ Says (.ipdb Q) ip' i' ∧ i.country ≠ i'.country)
    (hord : AnswerOrders (fun i => ∃ ip, Family w (.ipdb Q) ip ∧ Says (.ipdb Q) ip i) orders)
    (ho : (0x2C : UInt8) ∉ a.output) (he : pathExt a.output = gs ".ipdb") (hcc : canCreate a.output = true)
    (hmeta : Ipdb.MetaRoundTrip w.encMeta w.decMeta (Ipdb.buildMeta w.now (OpenDb.versionInfo w (.ipdb Q)) sevenFields)) :
    ∃ fs' b, converter w fuel orders canCreate fs a = some (fs', .ok ()) ∧
      fs' a.output = some b ∧ (∀ n ≠ a.output, fs' n = fs n) ∧
      (b.length < 2 ^ 32 → ∃ q, NewDb w (serverFormats w fuel) fs' a.output = .ok q ∧
        (∀ ip i, Family w (.ipdb Q) ip → Says (.ipdb Q) ip i → ∃ o n, q.query ip = .ok (o, maskFor n ip) ∧
          Covers n (addrNum ip) ∧ Finished (fun i => ∃ ip, Family w (.ipdb Q) ip ∧ Says (.ipdb Q) ip i) i o ∧
          ∀ ip', Family w (.ipdb Q) ip' → Covers n (addrNum ip') → ∃ i', Says (.ipdb Q) ip' i' ∧
            Finished (fun i => ∃ ip, Family w (.ipdb Q) ip ∧ Says (.ipdb Q) ip i) i' o) ∧
        (∀ ip, ¬ Family w (.ipdb Q) ip → q.query ip = .err .databaseError)) := by
  obtain ⟨D, cap, hdes, hdumps⟩ := ipdb_describes hfuel hin hext hcols hall hcross hrule
  exact convert_answers hdes hdumps (fun i ⟨ip, h1, h2⟩ => hplain ip i h1 h2)
    (fun h => by
      obtain ⟨ip, ip', i, i', g1, g2, g3, g4, g5⟩ := huni (dumpLen16 h)
      exact ⟨i, i', ⟨ip, g1, g3⟩, ⟨ip', g2, g4⟩, g5⟩) hline hord ho he hcc hmeta

/-! ## `.awdb` inputs -/

theorem dumper_awdb (w : World) (fuel : Nat) : (converterFormats w fuel).GetDumpFormat (gs ".awdb") =
    some fun b e => withSlices (capOf w e) (Awdb.dump fuel b e) := by
  unfold converterFormats plainInit memipInit ipdbInit awdbInit
  simp only [Registry.RegisterDumpFormat, Registry.RegisterQueryFormat, Registry.RegisterPackFormat,
    Registry.GetDumpFormat, mapGet_mapSet]
  rw [if_neg (by decide +kernel), if_neg (by decide +kernel), if_neg (by decide +kernel), if_pos trivial]
  rfl

theorem opener_awdb (w : World) (fuel : Nat) : (converterFormats w fuel).GetQueryFormat (gs ".awdb") =
    some fun b => do
      let r ← Awdb.open_ b
      return .awdb r := by
  unfold converterFormats plainInit memipInit ipdbInit awdbInit
  simp only [Registry.RegisterDumpFormat, Registry.RegisterQueryFormat, Registry.RegisterPackFormat,
    Registry.GetQueryFormat, mapGet_mapSet]
  rw [if_neg (by decide +kernel), if_pos trivial]
  rfl

theorem open_awdb {w : World} {fuel : Nat} {fs : Fs} {f : Str} {R : Awdb.Reader} (he : pathExt f = gs ".awdb")
    (h : NewDb w (converterFormats w fuel) fs f = .ok (.awdb R)) :
    ∃ b, fs f = some b ∧ Awdb.open_ b = .ok R ∧ Awdb.FromBytes b = .ok R := by
  unfold NewDb at h
  cases hb : fs f with
  | none => rw [hb] at h; cases h
  | some b =>
    rw [hb] at h
    simp only [he] at h
    unfold NewDbFromBytes at h
    rw [opener_awdb] at h
    obtain ⟨o, h1, h2⟩ := Res.bind_eq_ok.mp h
    obtain ⟨R', h3, h4⟩ := Res.bind_eq_ok.mp h1
    obtain rfl := Res.ok.inj h4
    have h5 : OpenDb.awdb R' = OpenDb.awdb R := Res.ok.inj h2
    injection h5 with h5
    subst h5
    refine ⟨b, rfl, h3, ?_⟩
    unfold Awdb.open_ at h3
    obtain ⟨R1, h6, h7⟩ := Res.bind_eq_ok.mp h3
    obtain ⟨_, _, h8⟩ := Res.bind_eq_ok.mp h7
    rw [h6, Res.ok.inj h8]

/-- The answer without its AS number. -/
def SaysNoAsn (q : OpenDb) (ip : IP) (i : IpInfo) : Prop := ∃ j, Says q ip j ∧ i = { j with asn := [] }

/-- **C96.** As C95 for `.awdb` files that are not IPv6, whose records have neither a key `asn` nor an empty key (the AS
number of an awdb record stands under `asnumber`): the converted database is built from the answers without their AS
number. -/
theorem C96_awdb (w : World) (fuel : Nat) (hfuel : fuel ≥ 2 ^ 128) (orders : Nat → List Str) (canCreate : Str → Bool)
    (fs : Fs) (a : Args) (R : Awdb.Reader)
    (hin : NewDb w (converterFormats w fuel) fs a.input = .ok (.awdb R)) (hext : pathExt a.input = gs ".awdb")
    (h6 : R.md.ipVersion ≠ 6)
    (hkeys : ∀ ip net rec, ValidIP ip → (To4 ip).isSome → R.Find ip = .ok (net, rec) → mapGet rec (gs "asn") = none ∧ mapGet rec [] = none)
    (hall : ∀ ip, ValidIP ip → (To4 ip).isSome → ∃ i, Says (.awdb R) ip i)
    (hrule : a.rule = gs "default") (hline : a.line = [])
    (hplain : ∀ ip i, ValidIP ip → (To4 ip).isSome → Says (.awdb R) ip i → Plainly i)
    (hord : AnswerOrders (fun i => ∃ ip, Family w (.awdb R) ip ∧ SaysNoAsn (.awdb R) ip i) orders)
    (ho : (0x2C : UInt8) ∉ a.output) (he : pathExt a.output = gs ".ipdb") (hcc : canCreate a.output = true)
    (hmeta : Ipdb.MetaRoundTrip w.encMeta w.decMeta (Ipdb.buildMeta w.now (OpenDb.versionInfo w (.awdb R)) sevenFields)) :
    ∃ fs' b, converter w fuel orders canCreate fs a = some (fs', .ok ()) ∧
      fs' a.output = some b ∧ (∀ n ≠ a.output, fs' n = fs n) ∧
      (b.length < 2 ^ 32 → ∃ q, NewDb w (serverFormats w fuel) fs' a.output = .ok q ∧
        (∀ ip i, Family w (.awdb R) ip → SaysNoAsn (.awdb R) ip i → ∃ o n, q.query ip = .ok (o, maskFor n ip) ∧
          Covers n (addrNum ip) ∧ Finished (fun i => ∃ ip, Family w (.awdb R) ip ∧ SaysNoAsn (.awdb R) ip i) i o ∧
          ∀ ip', Family w (.awdb R) ip' → Covers n (addrNum ip') → ∃ i', SaysNoAsn (.awdb R) ip' i' ∧
            Finished (fun i => ∃ ip, Family w (.awdb R) ip ∧ SaysNoAsn (.awdb R) ip i) i' o) ∧
        (∀ ip, ¬ Family w (.awdb R) ip → q.query ip = .err .databaseError)) := by
  obtain ⟨bytes, hfs, hop, hfb⟩ := open_awdb hext hin
  have hl : dumpLen (OpenDb.versionInfo w (.awdb R)) = 4 := Awdb.dumpLen_four h6
  have hown : ReturnsOwnNet (dumpLen (OpenDb.versionInfo w (.awdb R))) R.Find := by
    rw [hl]; exact Awdb.find_own (Awdb.opened hfb).start h6
  have hcoh : Coherent (dumpLen (OpenDb.versionInfo w (.awdb R))) R.Find := by
    rw [hl]; exact Awdb.find_coherent (Awdb.opened hfb).start h6
  obtain ⟨e, e1, e2, e3⟩ := default_export
  have hfam : ∀ ip, Family w (.awdb R) ip ↔ ValidIP ip ∧ (To4 ip).isSome := by
    intro ip
    refine and_congr_right fun _ => ?_
    rw [hl]; simp
  have hfound : ∀ ip j m, ValidIP ip → (To4 ip).isSome → (OpenDb.awdb R).query ip = .ok (j, m) → ∃ c rec, R.Find ip = .ok (c, rec) ∧
      e.Export (Export.Select Awdb.CommonFieldsMap e.fields) rec = .ok (vals (ruled { j with asn := [] })) := by
    intro ip j m hv h4 h
    have h' : R.Query ip = .ok (j, m) := h
    unfold Awdb.Reader.Query at h'
    obtain ⟨⟨c, rec⟩, g1, g2⟩ := Res.bind_eq_ok.mp h'
    obtain ⟨g3, g4⟩ := Prod.mk.inj (Res.ok.inj g2)
    refine ⟨c, rec, g1, ?_⟩
    obtain ⟨n1, n2⟩ := hkeys ip c rec hv h4 g1
    have key : ∀ f k, mapGet Awdb.CommonFieldsMap f = some k → ruleValue Awdb.CommonFieldsMap rec f = Awdb.strAt rec k := by
      intro f k hk; unfold ruleValue Awdb.strAt; rw [hk]
    have hd : ruleValue Awdb.CommonFieldsMap rec (gs "district") = [] := by
      unfold ruleValue
      rw [show mapGet Awdb.CommonFieldsMap (gs "district") = none by decide +kernel, n2]; rfl
    have ha : ruleValue Awdb.CommonFieldsMap rec (gs "asn") = [] := by
      rw [key _ (gs "asn") (by decide +kernel)]
      unfold Awdb.strAt; rw [n1]; rfl
    rw [e3, key (gs "country") (gs "country") (by decide +kernel), key (gs "province") (gs "province") (by decide +kernel),
      key (gs "city") (gs "city") (by decide +kernel), key (gs "isp") (gs "isp") (by decide +kernel), ha,
      key (gs "continent") (gs "continent") (by decide +kernel), hd, ← keeps_ruled, ← g3]
  have hall' : ∀ ip, Walked (OpenDb.versionInfo w (.awdb R)) ip → ∃ c m i, R.Find ip = .ok (c, m) ∧
      SaysNoAsn (.awdb R) ip i ∧ e.Export (Export.Select Awdb.CommonFieldsMap e.fields) m = .ok (vals (ruled i)) := by
    intro ip hw
    obtain ⟨hv, h4⟩ := (hfam ip).mp hw
    obtain ⟨j, m, hj⟩ := hall ip hv h4
    obtain ⟨c, rec, g1, g2⟩ := hfound ip j m hv h4 hj
    exact ⟨c, rec, _, g1, ⟨j, ⟨m, hj⟩, rfl⟩, g2⟩
  obtain ⟨D, hD⟩ := build_total (fm := Awdb.CommonFieldsMap) (fields := Awdb.Fields) (ept := some e) hown hcoh
    (fun i => ⟨_, e3 Awdb.CommonFieldsMap i⟩)
    (fun ip hw => by obtain ⟨c, m, _, h, _⟩ := hall' ip hw; exact ⟨c, m, h⟩)
    (fun h => by omega)
  have hD' := hD fuel hfuel
  have hdes : Describes (OpenDb.versionInfo w (.awdb R)) (SaysNoAsn (.awdb R)) D := by
    refine build_describes e2 hown hcoh hall' ?_ ?_ hD'
    · intro ip c m hf _
      rw [hl] at hf
      exact (hfam ip).mpr ⟨hf.1, (Ipdb.InFam4_iff hf.1).mp hf⟩
    · rintro ip i j ⟨i', ⟨m, h1⟩, rfl⟩ ⟨j', ⟨m', h2⟩, rfl⟩
      rw [h1] at h2
      rw [(Prod.mk.inj (Res.ok.inj h2)).1]
  have hdumps : Dumps w fuel fs a (capOf w (some e)) D := by
    refine ⟨bytes, _, hfs, by rw [hext]; exact dumper_awdb w fuel, ?_⟩
    simp only [hrule, ruleText, if_true, e1]
    unfold Awdb.dump
    rw [hop]
    show withSlices _ (Export.BuildIPData fuel Awdb.CommonFieldsMap Awdb.Fields (some e) (OpenDb.versionInfo w (.awdb R)) R.Find) = _
    rw [hD']
    rfl
  refine convert_answers hdes hdumps ?_ (fun h => by omega) hline hord ho he hcc hmeta
  rintro i ⟨ip, h1, j, h2, rfl⟩
  obtain ⟨hv, h4⟩ := (hfam ip).mp h1
  have := hplain ip j hv h4 h2
  intro u hu
  simp only [List.mem_cons, List.not_mem_nil, or_false] at hu
  rcases hu with h | h | h | h | h | h | h
  · exact this u (by simp [h])
  · exact this u (by simp [h])
  · exact this u (by simp [h])
  · exact this u (by simp [h])
  · rw [h]; decide
  · exact this u (by simp [h])
  · exact this u (by simp [h])

/-! ## Consequences -/

theorem named_empty : normValue NormalizedMap (some (gs "isp")) [] = [] ∧ normValue NormalizedMap (some (gs "asn")) [] = [] ∧
    normValue NormalizedMap (some (gs "province")) [] = [] ∧ normValue NormalizedMap (some (gs "city")) [] = [] := by
  decide +kernel

theorem cleaned_isp (i : IpInfo) : (cleaned i).isp = normValue NormalizedMap (some (gs "isp")) (ruled i).isp := by
  unfold cleaned named; generalize NormalizedMap = N; rfl

theorem cleaned_asn (i : IpInfo) : (cleaned i).asn = normValue NormalizedMap (some (gs "asn")) (ruled i).asn := by
  unfold cleaned named; generalize NormalizedMap = N; rfl

theorem cleaned_province (i : IpInfo) :
    (cleaned i).province = normValue NormalizedMap (some (gs "province")) (ruled i).province := by
  unfold cleaned named; generalize NormalizedMap = N; rfl

theorem cleaned_city (i : IpInfo) : (cleaned i).city = normValue NormalizedMap (some (gs "city")) (ruled i).city := by
  unfold cleaned named; generalize NormalizedMap = N; rfl

theorem cleaned_foreign {i : IpInfo} (h : i.country ≠ gs "中国") : (cleaned i).isp = [] ∧ (cleaned i).asn = [] ∧
    (cleaned i).province = [] ∧ (cleaned i).city = [] := by
  obtain ⟨e1, e2, e3, e4⟩ := named_empty
  have hr : (ruled i).isp = [] ∧ (ruled i).asn = [] ∧ (ruled i).province = [] ∧ (ruled i).city = [] := by
    unfold ruled; rw [if_pos h]; exact ⟨rfl, rfl, rfl, rfl⟩
  rw [cleaned_isp, cleaned_asn, cleaned_province, cleaned_city, hr.1, hr.2.1, hr.2.2.1, hr.2.2.2]
  exact ⟨e1, e2, e3, e4⟩

/-- **C95 (a surprise).** If one address in China has a main carrier and no AS number, every address outside China gets a
Chinese main carrier from the conversion. -/
theorem C95_foreign_carrier (A : IpInfo → Prop) (i o j : IpInfo) (hf : Finished A i o) (hi : i.country ≠ gs "中国")
    (hj : A j) (hm : (cleaned j).isp ∈ mainCarriers) (ha : (cleaned j).asn = []) : o.isp ∈ mainCarriers := by
  obtain ⟨h1, h2, _, _⟩ := cleaned_foreign hi
  obtain ⟨_, _, _, _, _, _, _, h⟩ := hf
  rw [h1, h2] at h
  rcases h with ⟨_, h⟩ | ⟨_, h | h⟩
  · exact h.1
  · exact absurd h (by decide +kernel)
  · exact absurd ⟨hm, j, hj, rfl, ha⟩ (h _)

/-- Otherwise addresses outside China have no carrier after a conversion. -/
theorem C95_foreign_none (A : IpInfo → Prop) (i o : IpInfo) (hf : Finished A i o) (hi : i.country ≠ gs "中国")
    (hno : ∀ j, A j → (cleaned j).isp ∈ mainCarriers → (cleaned j).asn ≠ []) :
    o.isp = [] ∧ o.asn = [] ∧ o.province = [] ∧ o.city = [] := by
  obtain ⟨h1, h2, k3, k4⟩ := cleaned_foreign hi
  obtain ⟨_, h3, h4, h5, _, _, _, h⟩ := hf
  refine ⟨?_, by rw [h5, h2], ?_, ?_⟩
  · rw [h1, h2] at h
    rcases h with ⟨_, hm, j, hj, e1, e2⟩ | ⟨h, _⟩
    · exact absurd e2 (hno j hj (by rw [e1]; exact hm))
    · exact h
  · rw [h3, k3]
  · rw [h4, k4]

/-- **C96 (a surprise).** From an `.awdb` file with one address of a main carrier in China, every other address of the
output has a main carrier too: the empty AS number of all records counts as the same one. -/
theorem C96_all_main (q : OpenDb) (P : IP → Prop) (ip ip' : IP) (i i' o : IpInfo)
    (hf : Finished (fun i => ∃ ip, P ip ∧ SaysNoAsn q ip i) i o) (hi : SaysNoAsn q ip i)
    (hp : P ip') (hi' : SaysNoAsn q ip' i') (hm : (cleaned i').isp ∈ mainCarriers) : o.isp ∈ mainCarriers := by
  have hasn : ∀ ip i, SaysNoAsn q ip i → (cleaned i).asn = [] := by
    rintro ip i ⟨j, _, rfl⟩
    have hr : (ruled { j with asn := [] }).asn = [] := by
      unfold ruled
      split
      · rfl
      · split <;> rfl
    rw [cleaned_asn, hr, named_empty.2.1]
  obtain ⟨_, _, _, _, _, _, _, h⟩ := hf
  rw [hasn ip i hi] at h
  rcases h with ⟨_, h⟩ | ⟨h0, h | h⟩
  · exact h.1
  · rw [h0]; exact h
  · exact absurd ⟨hm, i', ⟨ip', hp, hi'⟩, rfl, hasn ip' i' hi'⟩ (h _)

end Uip.Program
