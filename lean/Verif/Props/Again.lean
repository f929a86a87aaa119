import Verif.Props.Canonical
/-!
# C118: converting again
-/
namespace Uip.Program
open Uip Uip.Spec Uip.Operate
open Uip.Export (sevenFields)
open Uip.Dump (Walked)

/-! ## The answers -/

theorem cleaned_country (i : IpInfo) : (cleaned i).country = i.country := by
  have h : ∀ v, normValue NormalizedMap (some (gs "country")) v = v := by
    intro v; unfold normValue
    rw [show (some (gs "country")).bind (mapGet NormalizedMap) = none by decide +kernel]
  have hr : (ruled i).country = i.country := by unfold ruled; split; rfl; split <;> rfl
  rw [show (cleaned i).country = normValue NormalizedMap (some (gs "country")) (ruled i).country by
    unfold cleaned named; generalize NormalizedMap = N; rfl, h, hr]

theorem cleaned_continent (i : IpInfo) : (cleaned i).continent = i.continent := by
  have h : ∀ v, normValue NormalizedMap (some (gs "continent")) v = v := by
    intro v; unfold normValue
    rw [show (some (gs "continent")).bind (mapGet NormalizedMap) = none by decide +kernel]
  have hr : (ruled i).continent = i.continent := by unfold ruled; split; rfl; split <;> rfl
  rw [show (cleaned i).continent = normValue NormalizedMap (some (gs "continent")) (ruled i).continent by
    unfold cleaned named; generalize NormalizedMap = N; rfl, h, hr]

theorem named_asn (v : Str) : normValue NormalizedMap (some (gs "asn")) v = v := by
  unfold normValue
  rw [show (some (gs "asn")).bind (mapGet NormalizedMap) = none by decide +kernel]

theorem normValue_twice (f v : Str) : normValue NormalizedMap (some f) (normValue NormalizedMap (some f) v) = normValue NormalizedMap (some f) v := by
  have hc := NormalizedMap_noChains
  generalize NormalizedMap = N at hc
  unfold normValue
  simp only [Option.bind_some]
  cases ht : mapGet N f with
  | none => rfl
  | some t =>
    simp only []
    cases hv : mapGet t v with
    | none => simp only [hv]
    | some v' =>
      simp only []
      rcases hc f t ht v v' hv with h | h <;> rw [h]

theorem spell_twice (v : Str) : spellContinent (spellContinent v) = spellContinent v := by
  unfold spellContinent
  cases h : continentTable.find? (fun p => decide (p.1 = v)) with
  | none => simp only [h]
  | some p =>
    simp only []
    have hp := List.mem_of_find?_eq_some h
    have hall : ∀ p ∈ continentTable, continentTable.find? (fun q => decide (q.1 = p.2)) = none := by decide +kernel
    rw [hall p hp]

/-- The province counts as Taiwan. -/
def Taiwan (p : Str) : Prop := p = gs "台湾" ∨ p = gs "中国台湾"

instance (p) : Decidable (Taiwan p) := by unfold Taiwan; infer_instance

theorem named_taiwan (p : Str) : Taiwan (normValue NormalizedMap (some (gs "province")) p) ↔ Taiwan p := by
  have hall : ∀ q ∈ (mapGet NormalizedMap (gs "province")).getD [], Taiwan q.1 ↔ Taiwan q.2 := by decide +kernel
  unfold normValue
  simp only [Option.bind_some]
  cases ht : mapGet NormalizedMap (gs "province") with
  | none => rfl
  | some t =>
    rw [ht] at hall
    simp only [Option.getD_some] at hall
    simp only []
    cases hv : mapGet t p with
    | none => rfl
    | some v =>
      simp only []
      exact (hall _ (mapGet_mem hv)).symm

theorem main_named {m : Str} (h : m ∈ mainCarriers) : normValue NormalizedMap (some (gs "isp")) m = m := by
  have hall : ∀ m ∈ mainCarriers, normValue NormalizedMap (some (gs "isp")) m = m := by decide +kernel
  exact hall m h

/-- What the default rule keeps, attribute by attribute. -/
theorem ruled_cases (i : IpInfo) :
    (i.country ≠ gs "中国" ∧ (ruled i).province = [] ∧ (ruled i).city = [] ∧ (ruled i).isp = [] ∧ (ruled i).asn = []) ∨
    (i.country = gs "中国" ∧ Taiwan i.province ∧ (ruled i).province = i.province ∧ (ruled i).city = [] ∧ (ruled i).isp = [] ∧ (ruled i).asn = []) ∨
    (i.country = gs "中国" ∧ ¬ Taiwan i.province ∧ (ruled i).province = i.province ∧ (ruled i).city = i.city ∧ (ruled i).isp = i.isp ∧
      (ruled i).asn = i.asn) := by
  unfold ruled Taiwan
  by_cases h : i.country = gs "中国"
  · right
    rw [if_neg (by simpa using h)]
    by_cases h' : i.province = gs "台湾" ∨ i.province = gs "中国台湾"
    · left; rw [if_pos h']; exact ⟨h, h', rfl, rfl, rfl, rfl⟩
    · right; rw [if_neg h']; exact ⟨h, h', rfl, rfl, rfl, rfl⟩
  · left
    rw [if_pos h]; exact ⟨h, rfl, rfl, rfl, rfl⟩

section
variable {A : IpInfo → Prop} {i o : IpInfo}

/-- Cleaning a converted answer changes nothing, except that it drops the carrier given to a record outside China or in
Taiwan. -/
theorem finished_cleaned (h : Finished A i o) : (cleaned o).country = o.country ∧ (cleaned o).province = o.province ∧
    (cleaned o).city = o.city ∧ (cleaned o).asn = o.asn ∧ spellContinent (cleaned o).continent = o.continent ∧
    (((cleaned i).isp = [] ∧ (cleaned o).isp = []) ∨ (cleaned o).isp = o.isp) := by
  obtain ⟨f1, f2, f3, f4, f5, f6, f7, f8⟩ := h
  rw [cleaned_country] at f1
  obtain ⟨e1, e2, e3, e4⟩ := named_empty
  refine ⟨cleaned_country o, ?_⟩
  have g5 : spellContinent (cleaned o).continent = o.continent := by
    rw [cleaned_continent, f5, spell_twice]
  rw [cleaned_province] at f2
  rw [cleaned_city] at f3
  rw [cleaned_asn] at f4
  rw [cleaned_isp i]
  rw [cleaned_province, cleaned_city, cleaned_asn, cleaned_isp]
  rcases ruled_cases i with ⟨hc, a1, a2, a3, a4⟩ | ⟨hc, ht, a1, a2, a3, a4⟩ | ⟨hc, ht, a1, a2, a3, a4⟩
  · rw [a1, e3] at f2
    rw [a2, e4] at f3
    rw [a4, e2] at f4
    rcases ruled_cases o with ⟨hd, b1, b2, b3, b4⟩ | ⟨hd, _⟩ | ⟨hd, _⟩
    · rw [b1, b2, b3, b4, a3, e1, e2, e3, e4, f2, f3, f4]
      exact ⟨rfl, rfl, rfl, g5, .inl ⟨rfl, rfl⟩⟩
    · exact absurd (f1 ▸ hd) hc
    · exact absurd (f1 ▸ hd) hc
  · rw [a1] at f2
    rw [a2, e4] at f3
    rw [a4, e2] at f4
    have ho : Taiwan o.province := by rw [f2]; exact (named_taiwan _).mpr ht
    rcases ruled_cases o with ⟨hd, _⟩ | ⟨_, _, b1, b2, b3, b4⟩ | ⟨_, hd, _⟩
    · exact absurd (f1.trans hc) hd
    · rw [b1, b2, b3, b4, a3, e1, e2, e4, f3, f4]
      refine ⟨?_, rfl, rfl, g5, .inl ⟨rfl, rfl⟩⟩
      rw [f2, normValue_twice]
    · exact absurd ho hd
  · rw [a1] at f2
    rw [a2] at f3
    rw [a4] at f4
    have ho : ¬ Taiwan o.province := by rw [f2]; exact fun h => ht ((named_taiwan _).mp h)
    rcases ruled_cases o with ⟨hd, _⟩ | ⟨_, hd, _⟩ | ⟨_, _, b1, b2, b3, b4⟩
    · exact absurd (f1.trans hc) hd
    · exact absurd hd ho
    · rw [b1, b2, b3, b4]
      refine ⟨by rw [f2, normValue_twice], by rw [f3, normValue_twice], named_asn _, g5, .inr ?_⟩
      rcases f8 with ⟨_, h⟩ | ⟨h, _⟩
      · exact main_named h.1
      · rw [h, cleaned_isp, normValue_twice]

/-- A set of answers that are exactly the converted answers of `A`. -/
structure ConvertedFrom (A A' : IpInfo → Prop) : Prop where
  from_ : ∀ o, A' o → ∃ i, A i ∧ Finished A i o
  each : ∀ i, A i → ∃ o, A' o ∧ Finished A i o

variable {A' : IpInfo → Prop}

/-- A converted answer whose cleaned carrier is a main one kept it or got it from its AS number. -/
theorem finished_main (h : Finished A i o) (hi : A i) (hm : (cleaned o).isp ∈ mainCarriers) :
    Carries A (cleaned o).asn (cleaned o).isp := by
  obtain ⟨_, _, _, g4, _, g6⟩ := finished_cleaned h
  obtain ⟨_, _, _, f4, _, _, _, f8⟩ := h
  have hne : ([] : Str) ∉ mainCarriers := by decide +kernel
  rcases g6 with ⟨_, e⟩ | e
  · rw [e] at hm; exact absurd hm hne
  · rw [e, g4, f4]
    rcases f8 with ⟨_, h⟩ | ⟨h, _⟩
    · exact h
    · rw [e, h] at hm
      exact ⟨h ▸ hm, i, hi, h.symm, rfl⟩

/-- A record with a main carrier keeps it. -/
theorem finished_keeps (h : Finished A i o) (hm : (cleaned i).isp ∈ mainCarriers) :
    (cleaned o).isp = (cleaned i).isp ∧ (cleaned o).asn = (cleaned i).asn := by
  obtain ⟨_, _, _, g4, _, g6⟩ := finished_cleaned h
  obtain ⟨_, _, _, f4, _, _, _, f8⟩ := h
  have hne : ([] : Str) ∉ mainCarriers := by decide +kernel
  refine ⟨?_, g4.trans f4⟩
  rcases g6 with ⟨e, _⟩ | e
  · rw [e] at hm; exact absurd hm hne
  · rw [e]
    rcases f8 with ⟨h, _⟩ | ⟨h, _⟩
    · exact absurd hm h
    · exact h

theorem ConvertedFrom.carries (h : ConvertedFrom A A') (s m : Str) : Carries A' s m ↔ Carries A s m := by
  constructor
  · rintro ⟨hm, o, ho, rfl, rfl⟩
    obtain ⟨i, hi, hf⟩ := h.from_ o ho
    exact finished_main hf hi hm
  · rintro ⟨hm, i, hi, rfl, rfl⟩
    obtain ⟨o, ho, hf⟩ := h.each i hi
    obtain ⟨e1, e2⟩ := finished_keeps hf hm
    exact ⟨hm, o, ho, e1, e2⟩

theorem ConvertedFrom.one (h : ConvertedFrom A A') (h1 : OneCarrier A) : OneCarrier A' := by
  intro o ho hn m m' k k'
  rw [h.carries] at k k'
  obtain ⟨i, hi, hf⟩ := h.from_ o ho
  have e : (cleaned o).asn = (cleaned i).asn := by
    rw [(finished_cleaned hf).2.2.2.1]; exact hf.2.2.2.1
  rw [e] at k k'
  refine h1 i hi (fun hm => ?_) m m' k k'
  rw [← (finished_keeps hf hm).1] at hm
  exact hn hm

/-- Converting converted answers again changes none of them. -/
theorem ConvertedFrom.fixed (h : ConvertedFrom A A') (h1 : OneCarrier A) {o o' : IpInfo} (ho : A' o) (hf' : Finished A' o o') : o' = o := by
  obtain ⟨i, hi, hf⟩ := h.from_ o ho
  obtain ⟨g1, g2, g3, g4, g5, g6⟩ := finished_cleaned hf
  have hmk := fun hm => finished_keeps hf hm
  obtain ⟨f1, f2, f3, f4, f5, f6, f7, f8⟩ := hf
  obtain ⟨k1, k2, k3, k4, k5, k6, k7, k8⟩ := hf'
  simp only [h.carries] at k8
  rw [g4, f4] at k8
  have hne : ([] : Str) ∉ mainCarriers := by decide +kernel
  have hisp : o'.isp = o.isp := by
    rcases g6 with ⟨e, e'⟩ | e'
    · rw [e'] at k8
      rw [e] at f8
      rcases k8 with ⟨_, k⟩ | ⟨k, k'⟩
      · rcases f8 with ⟨_, f⟩ | ⟨f, f'⟩
        · exact h1 i hi (by rw [e]; exact hne) _ _ k f
        · rcases f' with f' | f'
          · exact absurd f' hne
          · exact absurd k (f' _)
      · rcases k' with k' | k'
        · exact absurd k' hne
        · rcases f8 with ⟨_, f⟩ | ⟨f, _⟩
          · exact absurd f (k' _)
          · rw [k, f]
    · rw [e'] at k8
      rcases k8 with ⟨k, k'⟩ | ⟨k, _⟩
      · rcases f8 with ⟨_, f⟩ | ⟨f, f'⟩
        · exact absurd f.1 k
        · rcases f' with f' | f'
          · rw [← f] at f'; exact absurd f' k
          · exact absurd k' (f' _)
      · exact k
  have hd : o'.district = o.district := by rw [k6, g2, f6, f2]
  obtain ⟨o1, o2, o3, o4, o5, o6, o7, o8⟩ := o
  obtain ⟨p1, p2, p3, p4, p5, p6, p7, p8⟩ := o'
  simp only at *
  rw [g1] at k1; rw [g2] at k2; rw [g3] at k3; rw [g4] at k4; rw [g5] at k5
  subst k1 k2 k3 k4 k5 hisp hd
  rw [k7, f7]

end

/-! ## The files -/

theorem finished_plain {A : IpInfo → Prop} {i o : IpInfo} (h : Finished A i o) (hp : Plainly i) : Plainly o := by
  have hf : ∀ v ∈ [i.country, i.province, i.city, i.isp, i.asn, i.continent, i.district], Fine v := hp
  simp only [List.mem_cons, List.not_mem_nil, or_false, forall_eq_or_imp, forall_eq] at hf
  obtain ⟨p1, p2, p3, p4, p5, p6, _⟩ := hf
  obtain ⟨f1, f2, f3, f4, f5, f6, f7, f8⟩ := h
  rw [cleaned_country] at f1
  rw [cleaned_province] at f2
  rw [cleaned_city] at f3
  rw [cleaned_asn, named_asn] at f4
  rw [cleaned_continent] at f5
  have hr : Fine (ruled i).province ∧ Fine (ruled i).city ∧ Fine (ruled i).isp ∧ Fine (ruled i).asn := by
    rcases ruled_cases i with ⟨_, a1, a2, a3, a4⟩ | ⟨_, _, a1, a2, a3, a4⟩ | ⟨_, _, a1, a2, a3, a4⟩ <;> rw [a1, a2, a3, a4]
    · exact ⟨fine_nil, fine_nil, fine_nil, fine_nil⟩
    · exact ⟨p2, fine_nil, fine_nil, fine_nil⟩
    · exact ⟨p2, p3, p4, p5⟩
  have hsp : Fine (spellContinent i.continent) := by
    unfold spellContinent
    cases h : continentTable.find? (fun p => decide (p.1 = i.continent)) with
    | none => exact p6
    | some p =>
      have hall : ∀ p ∈ continentTable, p.2.length ≤ 255 ∧ (0x09 : UInt8) ∉ p.2 := by decide +kernel
      exact hall p (List.mem_of_find?_eq_some h)
  have hisp : Fine o.isp := by
    rcases f8 with ⟨_, h⟩ | ⟨h, _⟩
    · exact fine_carrier h.1
    · rw [h, cleaned_isp]; exact fine_norm hr.2.2.1
  intro v hv
  simp only [List.mem_cons, List.not_mem_nil, or_false] at hv
  rcases hv with rfl | rfl | rfl | rfl | rfl | rfl | rfl
  · rw [f1]; exact p1
  · rw [f2]; exact fine_norm hr.1
  · rw [f3]; exact fine_norm hr.2.1
  · exact hisp
  · rw [f4]; exact hr.2.2.2
  · rw [f5]; exact hsp
  · rw [f6]; exact fine_districtOf _

/-- An IPv6 dump has no row inside `::ffff:0:0/96`. -/
theorem Describes.crossing {v : VersionInfo} {K : IP → IpInfo → Prop} {D : IpData} (h : Describes v K D) (h6 : dumpLen v = 16) :
    ∃ x ∈ D.ips, Covers x.cidr (addrNum belowMapped) ∧ 33 ≤ hostBits x.cidr := by
  obtain ⟨n, hn, hc⟩ := ((tiles_covers h.tiles).2 (0xffff * 2 ^ 32)).mpr (by rw [h6]; decide)
  obtain ⟨x, hx, rfl⟩ := List.mem_map.mp hn
  obtain ⟨ip, hw, hcip⟩ := h.from_ x hx
  have hb := (WFNet_bounds (h.wf x hx).1).1
  have hnot : ¬ (0xffff * 2 ^ 32 ≤ addrNum ip ∧ addrNum ip < 0x10000 * 2 ^ 32) := by
    intro hm
    have := hw.2.mp ((To4_isSome_iff hw.1).mpr (by omega))
    omega
  have e : netEnd x.cidr = netLo x.cidr + 2 ^ hostBits x.cidr := rfl
  have hz : addrNum belowMapped = 0xffff * 2 ^ 32 - 1 := by decide +kernel
  unfold Covers at hc hcip ⊢
  rw [hz]
  have d32 : 2 ^ 32 ∣ 0xffff * 2 ^ 32 := ⟨0xffff, by decide⟩
  have d33 : 2 ^ 33 ∣ 0xfffe * 2 ^ 32 := ⟨0x7fff, by decide⟩
  rcases Nat.lt_or_ge (hostBits x.cidr) 33 with hlt | hge
  · exfalso
    rcases laminar hb d32 (by omega : hostBits x.cidr ≤ 32) with h | h | h <;> omega
  · refine ⟨x, hx, ?_, hge⟩
    rcases laminar d33 hb hge with h | h | h <;> omega

section
variable {w : World} {fuel : Nat} {orders : Nat → List Str} {canCreate : Str → Bool} {fs : Fs} {a : Args} {Q : Ipdb.Querier}

theorem versionInfo_ipdb (w : World) (Q : Ipdb.Querier) : (OpenDb.versionInfo w (.ipdb Q)).ipType ∈ [IpV4, IpV6, IpAll] ∧
    (OpenDb.versionInfo w (.ipdb Q)).version ≠ [] := by
  constructor
  · show Q.r.md.IpType ∈ _
    unfold Ipdb.MetaData.IpType
    split
    · simp
    · split <;> simp
  · show (if Q.r.md.version = [] then gs "ipip.net-" ++ w.fmtDate Q.r.md.build else Q.r.md.version) ≠ []
    split
    · intro h
      have := congrArg List.length h
      rw [List.length_append] at this
      have h9 : (gs "ipip.net-").length = 9 := by decide +kernel
      rw [h9] at this
      simp at this
    · assumption

/-- What a conversion writes, opened again. -/
theorem Convertible.output (h : Convertible w fuel orders canCreate fs a Q) (hfuel : fuel ≥ 2 ^ 128) :
    ∃ b, converter w fuel orders canCreate fs a = some (fs.set a.output b, .ok ()) ∧
      (b.length < 2 ^ 32 → ∃ Q', Opens w fuel b Q' ∧ Q'.r.md.fields.length = 7 ∧
        SameRelease (OpenDb.versionInfo w (.ipdb Q)) (OpenDb.versionInfo w (.ipdb Q')) ∧
        (∀ ip, Family w (.ipdb Q') ip ↔ Family w (.ipdb Q) ip) ∧
        (∀ ip i, Family w (.ipdb Q) ip → Says (.ipdb Q) ip i → ∃ o, Says (.ipdb Q') ip o ∧ Finished (AnswersOf w Q) i o) ∧
        ((OpenDb.versionInfo w (.ipdb Q')).IsIpV6 = true → ∃ i m, (OpenDb.ipdb Q').query belowMapped = .ok (i, m) ∧ m ≤ 95)) := by
  obtain ⟨D, cap, hdes, hd, ht, hasc, hord⟩ := h.dumped hfuel
  have e1 : addField sevenFields fDistrict = sevenFields := by decide +kernel
  have hmeta : Ipdb.MetaRoundTrip w.encMeta w.decMeta (Ipdb.buildMeta w.now D.version (addField D.fields fDistrict)) := by
    rw [hdes.fields, e1, hdes.version]; exact h.codec
  obtain ⟨b, d2, d3, d4, c1, hset, hw2, ha2, hm, hw4, hr4, hv4, hd4, hf4, hver4, hi4, hp4, _⟩ :=
    convert_bytes hd ht h.line hord h.single h.target h.creates hmeta
  obtain ⟨fs', b', k1, k2, _, k4⟩ := C95_ipdb w fuel hfuel orders canCreate fs a Q h.opened h.kind h.columns h.total h.crosses h.rule
    h.line h.plain h.mixed h.orders h.single h.target h.creates h.codec
  rw [c1] at k1
  obtain rfl := (Prod.mk.inj (Option.some.inj k1)).1
  obtain rfl : b = b' := by
    unfold Fs.set at k2
    rw [if_pos rfl] at k2
    exact Option.some.inj k2
  have hf4' : d4.fields = sevenFields := by rw [hf4, hdes.fields, e1]
  obtain ⟨b', p1, p2⟩ := packed_ipdb (w := w) (fuel := fuel) hr4 hv4 hd4 (by show 2 ≤ d4.fields.length; rw [hf4']; decide)
    (by
      show Ipdb.MetaRoundTrip _ _ (Ipdb.buildMeta _ d4.version d4.fields)
      rw [hver4, hf4]; exact hmeta)
  rw [hp4] at p1
  obtain rfl := Res.ok.inj p1
  refine ⟨b, c1, fun hl => ?_⟩
  obtain ⟨Q', o1, o2, o3, o4, o5, o6⟩ := p2 hl
  obtain ⟨q, q1, q2, _⟩ := k4 hl
  have hq : q = .ipdb Q' := by
    have e := o1 (fs.set a.output b) a.output k2 h.target
    unfold NewDb NewDbFromBytes at q1 e
    rw [k2] at q1 e
    simp only [h.target] at q1 e
    rw [knows_server] at q1
    rw [knows_converter] at e
    rw [e] at q1
    exact (Res.ok.inj q1).symm
  subst hq
  have hv : d4.view.version = { D.version with count := UInt32.ofNat d3.rows.length } := hver4
  obtain ⟨n1, n2⟩ := versionInfo_ipdb w Q
  have hrel : SameRelease (OpenDb.versionInfo w (.ipdb Q)) (OpenDb.versionInfo w (.ipdb Q')) := by
    rw [hv] at o3 o4 o5
    rw [hdes.version] at o3 o4 o5
    exact ⟨o3 n1, by rw [o5]; exact if_neg n2, o4⟩
  have hlen : dumpLen (OpenDb.versionInfo w (.ipdb Q')) = dumpLen (OpenDb.versionInfo w (.ipdb Q)) := by
    unfold dumpLen VersionInfo.IsIpV6; rw [hrel.1]
  refine ⟨Q', o1, by rw [o2]; show d4.fields.length = 7; rw [hf4']; rfl, hrel, fun ip => by unfold Family Walked; rw [hlen], fun ip i hf hs => ?_, fun h6 => ?_⟩
  · obtain ⟨o, n, g1, _, g3, _⟩ := q2 ip i hf hs
    exact ⟨o, ⟨_, g1⟩, g3⟩
  · have h16 : dumpLen (OpenDb.versionInfo w (.ipdb Q)) = 16 := by
      rw [← hlen]; unfold dumpLen; rw [if_pos h6]
    obtain ⟨x, hx, hcx, hbx⟩ := hdes.crossing h16
    obtain ⟨x', hx', hs⟩ := rel2_mem_left hset hx
    obtain ⟨r', hr', m1, m2, _⟩ := C91_inside d2 d3 hw2 (ha2 hasc) hm x' hx'
    rw [hs.cidr] at m1 m2
    have hcr : Covers r'.cidr (addrNum belowMapped) := ⟨Nat.le_trans m1 hcx.1, Nat.lt_of_lt_of_le hcx.2 m2⟩
    have hsup : Supports d4.view.version belowMapped := by
      rw [hv, hdes.version]
      have hw : Walked (OpenDb.versionInfo w (.ipdb Q)) belowMapped := by
        unfold Walked; rw [h16]; decide +kernel
      exact hw.supports
    have hq := o6 belowMapped (setOrAdd D.fields fDistrict (districtOf ((fieldVal D.fields fProvince r').getD [])) r')
      (by decide +kernel) hsup (by rw [hi4]; exact List.mem_map.mpr ⟨r', hr', rfl⟩)
      (by rw [show (setOrAdd D.fields fDistrict (districtOf ((fieldVal D.fields fProvince r').getD [])) r').cidr = r'.cidr by
            unfold setOrAdd; split <;> rfl]; exact hcr)
    refine ⟨_, _, hq, ?_⟩
    have hc : (setOrAdd D.fields fDistrict (districtOf ((fieldVal D.fields fProvince r').getD [])) r').cidr = r'.cidr := by
      unfold setOrAdd; split <;> rfl
    rw [hc]
    unfold maskFor
    rw [if_neg (by decide +kernel)]
    have hpow : 2 ^ hostBits x.cidr ≤ 2 ^ hostBits r'.cidr := by
      have ex : netEnd x.cidr = netLo x.cidr + 2 ^ hostBits x.cidr := rfl
      have er : netEnd r'.cidr = netLo r'.cidr + 2 ^ hostBits r'.cidr := rfl
      omega
    have := (Nat.pow_le_pow_iff_right (a := 2) (by decide)).mp hpow
    omega

/-- An invocation of the converter from an `.ipdb` file to another, with the default rule and without a line file. -/
structure PlainRun (a : Args) (canCreate : Str → Bool) : Prop where
  kind : pathExt a.input = gs ".ipdb"
  rule : a.rule = gs "default"
  line : a.line = []
  single : (0x2C : UInt8) ∉ a.output
  target : pathExt a.output = gs ".ipdb"
  creates : canCreate a.output = true

theorem Convertible.run (h : Convertible w fuel orders canCreate fs a Q) : PlainRun a canCreate :=
  ⟨h.kind, h.rule, h.line, h.single, h.target, h.creates⟩

/-- The file a conversion writes can itself be converted, and has the same set of main carriers. -/
theorem Convertible.next (h : Convertible w fuel orders canCreate fs a Q) {b : Bytes} {Q' : Ipdb.Querier} (ho : Opens w fuel b Q')
    (h7 : Q'.r.md.fields.length = 7) (hrel : SameRelease (OpenDb.versionInfo w (.ipdb Q)) (OpenDb.versionInfo w (.ipdb Q')))
    (hfam : ∀ ip, Family w (.ipdb Q') ip ↔ Family w (.ipdb Q) ip)
    (hans : ∀ ip i, Family w (.ipdb Q) ip → Says (.ipdb Q) ip i → ∃ o, Says (.ipdb Q') ip o ∧ Finished (AnswersOf w Q) i o)
    (hcross : (OpenDb.versionInfo w (.ipdb Q')).IsIpV6 = true → ∃ i m, (OpenDb.ipdb Q').query belowMapped = .ok (i, m) ∧ m ≤ 95) :
    ConvertedFrom (AnswersOf w Q) (AnswersOf w Q') ∧
    ∀ (orders2 : Nat → List Str) (can2 : Str → Bool) (fs2 : Fs) (a2 : Args), PlainRun a2 can2 → fs2 a2.input = some b →
      AnswerOrders (AnswersOf w Q) orders2 → Convertible w fuel orders2 can2 fs2 a2 Q' := by
  have hone : ∀ ip i j, Says (.ipdb Q') ip i → Says (.ipdb Q') ip j → i = j := by
    rintro ip i j ⟨m, h1⟩ ⟨m', h2⟩
    rw [h1] at h2
    exact (Prod.mk.inj (Res.ok.inj h2)).1
  have hback : ∀ ip o, Family w (.ipdb Q') ip → Says (.ipdb Q') ip o → ∃ i, Says (.ipdb Q) ip i ∧ Finished (AnswersOf w Q) i o := by
    intro ip o hf hs
    obtain ⟨i, hi⟩ := h.total ip ((hfam ip).mp hf)
    obtain ⟨o', ho', hfin⟩ := hans ip i ((hfam ip).mp hf) hi
    obtain rfl := hone ip o o' hs ho'
    exact ⟨i, hi, hfin⟩
  have hcf : ConvertedFrom (AnswersOf w Q) (AnswersOf w Q') := by
    refine ⟨?_, ?_⟩
    · rintro o ⟨ip, hf, hs⟩
      obtain ⟨i, hi, hfin⟩ := hback ip o hf hs
      exact ⟨i, ⟨ip, (hfam ip).mp hf, hi⟩, hfin⟩
    · rintro i ⟨ip, hf, hs⟩
      obtain ⟨o, ho, hfin⟩ := hans ip i hf hs
      exact ⟨o, ⟨ip, (hfam ip).mpr hf, ho⟩, hfin⟩
  have hv6 : (OpenDb.versionInfo w (.ipdb Q')).IsIpV6 = (OpenDb.versionInfo w (.ipdb Q)).IsIpV6 := by
    unfold VersionInfo.IsIpV6; rw [hrel.1]
  have hcar : ∀ m, m ∈ mainCarriers → ((∃ i, AnswersOf w Q i ∧ (cleaned i).isp = m) ↔ ∃ o, AnswersOf w Q' o ∧ (cleaned o).isp = m) := by
    intro m hm
    constructor
    · rintro ⟨i, hi, e⟩
      obtain ⟨_, o, ho, e1, _⟩ := (hcf.carries (cleaned i).asn m).mpr ⟨hm, i, hi, e, rfl⟩
      exact ⟨o, ho, e1⟩
    · rintro ⟨o, ho, e⟩
      obtain ⟨_, i, hi, e1, _⟩ := (hcf.carries (cleaned o).asn m).mp ⟨hm, o, ho, e, rfl⟩
      exact ⟨i, hi, e1⟩
  refine ⟨hcf, fun orders2 can2 fs2 a2 hrun hfs hord => ?_⟩
  exact
    { opened := ho fs2 a2.input hfs hrun.kind
      kind := hrun.kind
      columns := by omega
      total := fun ip hf => by
        obtain ⟨i, hi⟩ := h.total ip ((hfam ip).mp hf)
        obtain ⟨o, ho, _⟩ := hans ip i ((hfam ip).mp hf) hi
        exact ⟨o, ho⟩
      crosses := hcross
      rule := hrun.rule
      line := hrun.line
      plain := fun ip o hf hs => by
        obtain ⟨i, hi, hfin⟩ := hback ip o hf hs
        exact finished_plain hfin (h.plain ip i ((hfam ip).mp hf) hi)
      mixed := fun h6 => by
        rw [hv6] at h6
        obtain ⟨ip, ip', i, i', g1, g2, g3, g4, g5⟩ := h.mixed h6
        obtain ⟨o, k1, k2⟩ := hans ip i g1 g3
        obtain ⟨o', k3, k4⟩ := hans ip' i' g2 g4
        refine ⟨ip, ip', o, o', (hfam ip).mpr g1, (hfam ip').mpr g2, k1, k3, ?_⟩
        rw [k2.1, k4.1, cleaned_country, cleaned_country]; exact g5
      orders := fun k => ⟨(hord k).1, fun m => ((hord k).2 m).trans (and_congr_right fun hm => hcar m hm)⟩
      single := hrun.single
      target := hrun.target
      creates := hrun.creates
      codec := by
        have : Ipdb.buildMeta w.now (OpenDb.versionInfo w (.ipdb Q')) sevenFields = Ipdb.buildMeta w.now (OpenDb.versionInfo w (.ipdb Q)) sevenFields := by
          unfold Ipdb.buildMeta Ipdb.ipVersion
          rw [hrel.1, hrel.2.1, hrel.2.2]
        rw [this]; exact h.codec }

/-- C118: converting twice. The file a conversion writes (`b1`) can be converted again, by any run; all these runs write the
same bytes `b2`, which answer every address as `b1` does; and every conversion of `b2` writes `b2`. -/
theorem C118_again (hfuel : fuel ≥ 2 ^ 128) (h : Convertible w fuel orders canCreate fs a Q) (hone : OneCarrier (AnswersOf w Q)) :
    ∃ b1, converter w fuel orders canCreate fs a = some (fs.set a.output b1, .ok ()) ∧
      (b1.length < 2 ^ 32 → ∃ b2 Q1, Opens w fuel b1 Q1 ∧
        (∀ ip i, Family w (.ipdb Q) ip → Says (.ipdb Q) ip i → ∃ o, Says (.ipdb Q1) ip o ∧ Finished (AnswersOf w Q) i o) ∧
        (∀ (orders2 : Nat → List Str) (can2 : Str → Bool) (fs2 : Fs) (a2 : Args), PlainRun a2 can2 → fs2 a2.input = some b1 →
          AnswerOrders (AnswersOf w Q) orders2 → converter w fuel orders2 can2 fs2 a2 = some (fs2.set a2.output b2, .ok ())) ∧
        (b2.length < 2 ^ 32 → ∃ Q2, Opens w fuel b2 Q2 ∧
          (∀ ip o, Family w (.ipdb Q) ip → (Says (.ipdb Q2) ip o ↔ Says (.ipdb Q1) ip o)) ∧
          ∀ (orders3 : Nat → List Str) (can3 : Str → Bool) (fs3 : Fs) (a3 : Args), PlainRun a3 can3 → fs3 a3.input = some b2 →
            AnswerOrders (AnswersOf w Q) orders3 → converter w fuel orders3 can3 fs3 a3 = some (fs3.set a3.output b2, .ok ()))) := by
  obtain ⟨b1, c1, k1⟩ := h.output hfuel
  refine ⟨b1, c1, fun hl1 => ?_⟩
  obtain ⟨Q1, o1, f1, r1, fam1, ans1, x1⟩ := k1 hl1
  obtain ⟨cf1, next1⟩ := h.next o1 f1 r1 fam1 ans1 x1
  -- one second run: the first one with its input replaced
  have hfs : (fs.set a.input b1) a.input = some b1 := if_pos rfl
  have h1 := next1 orders canCreate (fs.set a.input b1) a h.run hfs h.orders
  obtain ⟨b2, c2, k2⟩ := h1.output hfuel
  have hone1 := cf1.one hone
  have bytes_of : ∀ {fsx : Fs} {n : Str} {x y : Bytes}, some (fsx.set n x, (Res.ok () : Res Unit)) = some (fsx.set n y, .ok ()) → x = y := by
    intro fsx n x y e
    have := congrFun (Prod.mk.inj (Option.some.inj e)).1 n
    unfold Fs.set at this
    rw [if_pos rfl, if_pos rfl] at this
    exact Option.some.inj this
  have second : ∀ (orders2 : Nat → List Str) (can2 : Str → Bool) (fs2 : Fs) (a2 : Args), PlainRun a2 can2 → fs2 a2.input = some b1 →
      AnswerOrders (AnswersOf w Q) orders2 → converter w fuel orders2 can2 fs2 a2 = some (fs2.set a2.output b2, .ok ()) := by
    intro orders2 can2 fs2 a2 hrun hfs2 hord
    obtain ⟨b, e1, e2⟩ := C117_same_bytes hfuel hfuel h1 (next1 orders2 can2 fs2 a2 hrun hfs2 hord) ⟨rfl, rfl, rfl⟩ (fun _ _ _ => Iff.rfl) hone1
    rw [c2] at e1
    rw [e2, bytes_of e1]
  refine ⟨b2, Q1, o1, ans1, second, fun hl2 => ?_⟩
  obtain ⟨Q2, o2, f2, r2, fam2, ans2, x2⟩ := k2 hl2
  obtain ⟨cf2, next2⟩ := h1.next o2 f2 r2 fam2 ans2 x2
  have hsame : ∀ ip o, Family w (.ipdb Q1) ip → (Says (.ipdb Q1) ip o ↔ Says (.ipdb Q2) ip o) := by
    intro ip o hf
    have key : ∀ o, Says (.ipdb Q1) ip o → Says (.ipdb Q2) ip o := by
      intro o ho
      obtain ⟨o', ho', hfin⟩ := ans2 ip o hf ho
      have := cf1.fixed hone ⟨ip, hf, ho⟩ hfin
      rw [← this]; exact ho'
    refine ⟨key o, fun ⟨m, e⟩ => ?_⟩
    obtain ⟨o', ho'⟩ := h1.total ip hf
    obtain ⟨m', e'⟩ := key o' ho'
    rw [e] at e'
    rw [(Prod.mk.inj (Res.ok.inj e')).1]
    exact ho'
  refine ⟨Q2, o2, fun ip o hf => (hsame ip o ((fam1 ip).mpr hf)).symm, fun orders3 can3 fs3 a3 hrun hfs3 hord => ?_⟩
  have hord1 : AnswerOrders (AnswersOf w Q1) orders3 := (next1 orders3 canCreate (fs.set a.input b1) a h.run hfs hord).orders
  obtain ⟨b, e1, e2⟩ := C117_same_bytes hfuel hfuel h1 (next2 orders3 can3 fs3 a3 hrun hfs3 hord1) r2 hsame hone1
  rw [c2] at e1
  rw [e2, bytes_of e1]

end

end Uip.Program
