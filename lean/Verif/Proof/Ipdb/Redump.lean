import Verif.Proof.Ipdb.Dump
/-!
# Packing a dumped ipdb again
-/
namespace Uip.Ipdb
open Uip Uip.Spec Uip.Export

/-! ## The record of a dumped row -/

theorem fillMap_get {fields values : List Str} {m0 m : GoMap Str} (h : fillMap fields values m0 = .ok m) (k : Str) (acc : Str)
    (hacc : (mapGet m0 k).getD [] = acc) :
    (mapGet m k).getD [] = lastOf (fun f => decide (f = k)) fields values acc ∧
      ((mapGet m k).isSome ↔ (mapGet m0 k).isSome ∨ k ∈ fields) := by
  induction fields generalizing values m0 acc with
  | nil => simp [fillMap] at h; subst h; simp [lastOf, hacc]
  | cons f fs ih =>
    cases values with
    | nil => simp [fillMap] at h
    | cons v vs =>
      simp only [fillMap] at h
      have := ih h (if f = k then v else acc) (by
        simp only [mapSet, mapGet]
        by_cases hk : f = k <;> simp [hk, hacc])
      refine ⟨by rw [this.1]; simp [lastOf], ?_⟩
      rw [this.2]
      simp only [mapSet, mapGet, List.mem_cons]
      by_cases hk : f = k
      · simp [hk]
      · simp only [if_neg hk]
        constructor
        · rintro (h | h)
          · exact .inl h
          · exact .inr (.inr h)
        · rintro (h | h | h)
          · exact .inl h
          · exact absurd h.symm hk
          · exact .inr h

/-- The exported names of an ipdb file's fields. -/
theorem mem_ExtKeys {fields : List Str} {f : Str} :
    f ∈ ExtKeys CommonFieldsMap fields ↔ ∃ v ∈ fields, (f, v) ∈ CommonFieldsMap := by
  unfold ExtKeys
  rw [List.mem_flatMap]
  constructor
  · rintro ⟨v, hv, hf⟩
    obtain ⟨⟨k, w⟩, hp, rfl⟩ := List.mem_map.mp hf
    obtain ⟨h1, h2⟩ := List.mem_filter.mp hp
    simp only [beq_iff_eq] at h2
    subst h2
    exact ⟨v, hv, h1⟩
  · rintro ⟨v, hv, hp⟩
    exact ⟨v, hv, List.mem_map.mpr ⟨(f, v), List.mem_filter.mpr ⟨hp, by simp⟩, rfl⟩⟩

theorem mapGet_common {f v : Str} : (f, v) ∈ CommonFieldsMap ↔ mapGet CommonFieldsMap f = some v := by
  constructor
  · intro h
    have : ∀ p ∈ CommonFieldsMap, mapGet CommonFieldsMap p.1 = some p.2 := by decide +kernel
    exact this _ h
  · intro h
    have : ∀ (m : GoMap Str), mapGet m f = some v → (f, v) ∈ m := by
      intro m
      induction m with
      | nil => intro h; cases h
      | cons p m ih =>
        intro h
        simp only [mapGet] at h
        split at h
        · rename_i hk; cases h; subst hk; simp
        · exact List.mem_cons_of_mem _ (ih h)
    exact this _ h

/-- Last value over a list of fields whose value depends on the field only. -/
theorem lastOf_map {p : Str → Bool} {val : Str → Str} {fs : List Str} {acc : Str} {k : Str}
    (hp : ∀ f ∈ fs, p f = decide (f = k)) :
    lastOf p fs (fs.map val) acc = if k ∈ fs then val k else acc := by
  induction fs generalizing acc with
  | nil => simp [lastOf]
  | cons f fs ih =>
    simp only [List.map_cons, lastOf]
    rw [ih (fun g hg => hp g (by simp [hg])), hp f (by simp)]
    by_cases hk : f = k
    · subst hk; simp
    · have : k ≠ f := fun h => hk h.symm
      simp [hk, this]

/-- The values of a dumped row without a rule. -/
def plainRow (fs : List Str) (info : GoMap Str) : List Str := fs.map fun v => match mapGet CommonFieldsMap v with
    | none => []
    | some infK => match mapGet info infK with
      | some f => f
      | none => []

theorem rowValues_none (fs : List Str) (info : GoMap Str) :
    Export.rowValues CommonFieldsMap fs none info = .ok (plainRow fs info) := rfl

theorem attr_dumped {fields values : List Str} {info : GoMap Str} (hi : fillMap fields values [] = .ok info)
    {names : List Str} {ext k : Str} (hk : mapGet CommonFieldsMap ext = some k)
    (hinj : ∀ p ∈ CommonFieldsMap, p.2 = k → p.1 = ext) (hne : ∀ p ∈ CommonFieldsMap, p.1 ∈ names ↔ p.1 = ext) :
    attr names (ExtKeys CommonFieldsMap fields) (plainRow (ExtKeys CommonFieldsMap fields) info) =
      lastOf (fun f => decide (f = k)) fields values [] := by
  rw [attr_eq_lastOf]
  unfold plainRow
  rw [lastOf_map (k := ext)]
  · obtain ⟨h1, h2⟩ := fillMap_get hi k [] rfl
    rw [← h1]
    have hm : ext ∈ ExtKeys CommonFieldsMap fields ↔ k ∈ fields := by
      rw [mem_ExtKeys]
      constructor
      · rintro ⟨v, hv, hp⟩
        rw [mapGet_common, hk] at hp
        cases hp; exact hv
      · intro h; exact ⟨k, h, mapGet_common.mpr hk⟩
    simp only [hk]
    by_cases hkf : k ∈ fields
    · rw [if_pos (hm.mpr hkf)]
      cases mapGet info k <;> rfl
    · rw [if_neg (fun h => hkf (hm.mp h))]
      have : (mapGet info k).isSome = false := by
        cases hs : (mapGet info k).isSome with
        | false => rfl
        | true => rcases h2.mp hs with h | h
                  · simp [mapGet] at h
                  · exact absurd h hkf
      cases hg : mapGet info k with
      | none => rfl
      | some x => rw [hg] at this; cases this
  · intro f hf
    obtain ⟨v, _, hp⟩ := mem_ExtKeys.mp hf
    have := hne _ hp
    simp only [decide_eq_decide]
    exact this

theorem spellContinent_idem (s : Str) : spellContinent (spellContinent s) = spellContinent s := by
  rw [← continentName_eq, ← continentName_eq]
  unfold continentName
  by_cases e1 : s = gs "AS"
  · rw [if_pos e1]; decide +kernel
  by_cases e2 : s = gs "EU"
  · rw [if_neg e1, if_pos e2]; decide +kernel
  by_cases e3 : s = gs "NA"
  · rw [if_neg e1, if_neg e2, if_pos e3]; decide +kernel
  by_cases e4 : s = gs "SA"
  · rw [if_neg e1, if_neg e2, if_neg e3, if_pos e4]; decide +kernel
  by_cases e5 : s = gs "AF"
  · rw [if_neg e1, if_neg e2, if_neg e3, if_neg e4, if_pos e5]; decide +kernel
  by_cases e6 : s = gs "OC"
  · rw [if_neg e1, if_neg e2, if_neg e3, if_neg e4, if_neg e5, if_pos e6]; decide +kernel
  by_cases e7 : s = gs "AN"
  · rw [if_neg e1, if_neg e2, if_neg e3, if_neg e4, if_neg e5, if_neg e6, if_pos e7]; decide +kernel
  simp only [if_neg e1, if_neg e2, if_neg e3, if_neg e4, if_neg e5, if_neg e6, if_neg e7]

theorem modify_eq_set' {l : List Str} {i : Nat} {v : Str} {g : Str → Str} (h : l[i]? = some v) :
    l.set i (g v) = l.modify i g := by
  induction l generalizing i with
  | nil => simp at h
  | cons x l ih =>
    cases i with
    | zero => simp at h; subst h; rfl
    | succ i => simp at h; simp [List.set, List.modify_succ_cons, ih h]

/-- What decoding guarantees about the values. -/
theorem decodeInfo_values {r : Reader} {body : Bytes} {off : Int} {values : List Str}
    (h : r.decodeInfo body off = .ok values) (hco : r.continentOffset = Offset FieldContinentCode r.md.fields)
    (hone : (r.md.fields.filter (fun f => decide (f = FieldContinentCode))).length ≤ 1) :
    values.length = r.md.fields.length ∧ (∀ v ∈ values, (0x09 : UInt8) ∉ v) ∧
      spellContinent (lastOf (fun f => decide (f = FieldContinentCode)) r.md.fields values []) =
        lastOf (fun f => decide (f = FieldContinentCode)) r.md.fields values [] := by
  have hsplit : ∀ (s : Str), ∀ v ∈ splitByte 0x09 s, (0x09 : UInt8) ∉ v := by
    intro s
    induction s with
    | nil => simp [splitByte]
    | cons b bs ih =>
      intro v hv
      simp only [splitByte] at hv
      split at hv
      · rcases List.mem_cons.mp hv with rfl | hv
        · simp
        · exact ih v hv
      · rename_i hb
        split at hv
        · simp at hv; subst hv; simp; exact fun h => hb h.symm
        · rename_i f fs hfs
          rw [hfs] at ih
          rcases List.mem_cons.mp hv with rfl | hv
          · have := ih f (by simp)
            simp only [List.mem_cons, not_or]
            exact ⟨fun h => hb h.symm, this⟩
          · exact ih v (by simp [hv])
  unfold Reader.decodeInfo at h
  simp only [] at h
  split at h
  · cases h
  · rename_i h1
    split at h
    · cases h
    · rename_i h2
      have hl : (((splitByte 0x09 body).drop off.toNat).take r.md.fields.length).length = r.md.fields.length := by
        rw [List.length_take, List.length_drop]; omega
      have ht : ∀ v ∈ ((splitByte 0x09 body).drop off.toNat).take r.md.fields.length, (0x09 : UInt8) ∉ v :=
        fun v hv => hsplit body v (List.mem_of_mem_drop (List.mem_of_mem_take hv))
      generalize ((splitByte 0x09 body).drop off.toNat).take r.md.fields.length = ret at h hl ht
      rw [hco] at h
      split at h
      · rename_i hn
        cases h
        refine ⟨hl, ht, ?_⟩
        rw [lastOf_none (fun f hf => by
          have := Offset_none hn
          simp only [decide_eq_false_iff_not]
          rintro rfl; exact this hf)]
        decide +kernel
      · rename_i i hi
        cases hv : ret[i]? with
        | none => rw [hv] at h; cases h
        | some v =>
          rw [hv] at h
          simp only [Res.ok.injEq] at h
          rw [modify_eq_set' hv] at h
          subst h
          refine ⟨by rw [List.length_modify]; exact hl, ?_, ?_⟩
          · intro w hw
            rcases mem_modify hw with hw | ⟨t, ht', rfl⟩
            · exact ht w hw
            · have := ht t ht'
              unfold continentName
              repeat' split
              all_goals first | decide +kernel | exact this
          · rw [lastOf_modify_only (Offset_some hi) (by simp) hone hl, continentName_eq, spellContinent_idem]

theorem ExtKeys_oneContinent {fields : List Str}
    (hone : (fields.filter (fun f => decide (f = FieldContinentCode))).length ≤ 1) :
    OneContinent (ExtKeys CommonFieldsMap fields) := by
  unfold OneContinent
  have key : ∀ fs : List Str, ((ExtKeys CommonFieldsMap fs).filter (fun f => decide (f ∈ continentNames))).length =
      (fs.filter (fun f => decide (f = FieldContinentCode))).length := by
    intro fs
    induction fs with
    | nil => rfl
    | cons f fs ih =>
      have hc : ExtKeys CommonFieldsMap (f :: fs) = ((CommonFieldsMap.filter (fun p => f == p.2)).map (·.1)) ++
          ExtKeys CommonFieldsMap fs := by unfold ExtKeys; rw [List.flatMap_cons]
      rw [hc, List.filter_append, List.length_append, ih, List.filter_cons]
      by_cases hf : f = FieldContinentCode
      · subst hf
        have : (((CommonFieldsMap.filter (fun p => FieldContinentCode == p.2)).map (·.1)).filter
          (fun f => decide (f ∈ continentNames))).length = 1 := by decide +kernel
        rw [this]; simp; omega
      · have : (((CommonFieldsMap.filter (fun p => f == p.2)).map (·.1)).filter
          (fun f => decide (f ∈ continentNames))) = [] := by
          rw [List.filter_eq_nil_iff]
          intro x hx
          obtain ⟨p, hp, rfl⟩ := List.mem_map.mp hx
          obtain ⟨h1, h2⟩ := List.mem_filter.mp hp
          simp only [beq_iff_eq] at h2
          have hall : ∀ p ∈ CommonFieldsMap, p.1 ∈ continentNames → p.2 = FieldContinentCode := by decide +kernel
          simp only [decide_eq_true_eq]
          intro hc
          exact hf (h2.trans (hall p h1 hc))
        rw [this]; simp [hf]
  rw [key]; exact hone

/-- The information of a dumped row is the information the reader builds from the record. -/
theorem infoOf_dumped {fields values : List Str} {info : GoMap Str} (hi : fillMap fields values [] = .ok info)
    (hs : spellContinent (lastOf (fun f => decide (f = FieldContinentCode)) fields values []) =
      lastOf (fun f => decide (f = FieldContinentCode)) fields values []) :
    infoOf (ExtKeys CommonFieldsMap fields) (plainRow (ExtKeys CommonFieldsMap fields) info) =
      buildInfo fields values {} := by
  have e1 := attr_dumped hi (names := countryNames) (ext := fCountry) (k := FieldCountryName) (by decide +kernel) (by decide +kernel) (by decide +kernel)
  have e2 := attr_dumped hi (names := districtNames) (ext := fDistrict) (k := fDistrict) (by decide +kernel) (by decide +kernel) (by decide +kernel)
  have e3 := attr_dumped hi (names := provinceNames) (ext := fProvince) (k := FieldRegionName) (by decide +kernel) (by decide +kernel) (by decide +kernel)
  have e4 := attr_dumped hi (names := cityNames) (ext := fCity) (k := FieldCityName) (by decide +kernel) (by decide +kernel) (by decide +kernel)
  have e5 := attr_dumped hi (names := asnNames) (ext := fAsn) (k := fAsn) (by decide +kernel) (by decide +kernel) (by decide +kernel)
  have e6 := attr_dumped hi (names := ispNames) (ext := fISP) (k := FieldISPDomain) (by decide +kernel) (by decide +kernel) (by decide +kernel)
  have e7 := attr_dumped hi (names := continentNames) (ext := fContinent) (k := FieldContinentCode) (by decide +kernel) (by decide +kernel) (by decide +kernel)
  have e8 := attr_dumped hi (names := lineNames) (ext := fLine) (k := fLine) (by decide +kernel) (by decide +kernel) (by decide +kernel)
  unfold infoOf
  rw [e1, e2, e3, e4, e5, e6, e7, e8, hs]
  have b1 := buildInfo_country fields values {}
  have b2 := buildInfo_district fields values {}
  have b3 := buildInfo_province fields values {}
  have b4 := buildInfo_city fields values {}
  have b5 := buildInfo_asn fields values {}
  have b6 := buildInfo_isp fields values {}
  have b7 := buildInfo_continent fields values {}
  have b8 := buildInfo_line fields values {}
  rw [← b1, ← b2, ← b3, ← b4, ← b5, ← b6, ← b7, ← b8]

end Uip.Ipdb
