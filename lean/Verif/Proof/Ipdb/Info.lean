import Verif.Proof.Ipdb.Pack
import Verif.Spec.Info
/-!
# From the stored record to `IpInfo`
-/
namespace Uip.Ipdb
open Uip Uip.Spec

/-- Last value of a field satisfying `p`, else `acc`. -/
def lastOf (p : Str → Bool) : List Str → List Str → Str → Str
  | f :: fs, v :: vs, acc => lastOf p fs vs (if p f then v else acc)
  | _, _, acc => acc

theorem lastOf_getLast (p : Str → Bool) (fs vs : List Str) (acc : Str) :
    lastOf p fs vs acc = (((fs.zip vs).filter (fun x => p x.1)).getLast?.map (·.2)).getD acc := by
  induction fs generalizing vs acc with
  | nil => rfl
  | cons f fs ih =>
    cases vs with
    | nil => rfl
    | cons v vs =>
      rw [lastOf, ih, List.zip_cons_cons, List.filter_cons]
      split
      · rename_i h
        generalize (fs.zip vs).filter (fun x => p x.1) = l
        rw [List.getLast?_cons]
        cases hl : l.getLast? <;> simp
      · rfl

theorem attr_eq_lastOf (names fields values : List Str) :
    attr names fields values = lastOf (fun f => decide (f ∈ names)) fields values [] := by
  rw [lastOf_getLast]; rfl

theorem lastOf_covert (p : Str → Bool) (fs vs : List Str) (acc : Str) :
    lastOf p (covertFields fs) vs acc =
      lastOf (fun f => p (match mapGet CommonFieldsMap f with | some g => g | none => f)) fs vs acc := by
  induction fs generalizing vs acc with
  | nil => rfl
  | cons f fs ih =>
    cases vs with
    | nil => rfl
    | cons v vs =>
      have := ih vs
      simp only [covertFields] at this ⊢
      simp only [List.map_cons, lastOf, this]
      rfl

theorem lastOf_congr {p q : Str → Bool} {fs vs : List Str} {acc : Str} (h : ∀ f, p f = q f) :
    lastOf p fs vs acc = lastOf q fs vs acc := by
  have : p = q := funext h
  rw [this]

/-- Changing a value of another field does not matter. -/
theorem lastOf_modify_other {p : Str → Bool} {fs vs : List Str} {acc : Str} {i : Nat} {g : Str → Str}
    (h : ∀ f, fs[i]? = some f → p f = false) : lastOf p fs (vs.modify i g) acc = lastOf p fs vs acc := by
  induction fs generalizing vs acc i with
  | nil => rfl
  | cons f fs ih =>
    cases vs with
    | nil => cases i <;> rfl
    | cons v vs =>
      cases i with
      | zero =>
        have := h f (by simp)
        simp only [List.modify_zero_cons, lastOf, this]
        rfl
      | succ i =>
        simp only [List.modify_succ_cons, lastOf]
        exact ih (fun f' hf' => h f' (by simpa using hf'))

theorem lastOf_none {p : Str → Bool} {fs vs : List Str} {acc : Str} (h : ∀ f ∈ fs, p f = false) :
    lastOf p fs vs acc = acc := by
  induction fs generalizing vs acc with
  | nil => rfl
  | cons f fs ih =>
    cases vs with
    | nil => rfl
    | cons v vs =>
      rw [lastOf, h f (by simp)]
      exact ih (fun f' hf' => h f' (by simp [hf']))

/-- Changing the only matching value. -/
theorem lastOf_modify_only {p : Str → Bool} {fs vs : List Str} {acc : Str} {i : Nat} {g : Str → Str} {f : Str}
    (hi : fs[i]? = some f) (hp : p f = true) (honly : (fs.filter p).length ≤ 1) (hl : vs.length = fs.length) :
    lastOf p fs (vs.modify i g) acc = g (lastOf p fs vs acc) := by
  induction fs generalizing vs acc i with
  | nil => simp at hi
  | cons x fs ih =>
    cases vs with
    | nil => simp at hl
    | cons v vs =>
      cases i with
      | zero =>
        simp at hi; subst hi
        rw [List.filter_cons, if_pos hp, List.length_cons] at honly
        have hnone : ∀ f ∈ fs, p f = false := by
          intro f hf
          cases hpf : p f with
          | false => rfl
          | true =>
            have : f ∈ fs.filter p := List.mem_filter.mpr ⟨hf, hpf⟩
            have := List.length_pos_of_mem this
            omega
        simp only [List.modify_zero_cons, lastOf, hp, if_true, lastOf_none hnone]
      | succ i =>
        simp only [List.modify_succ_cons, lastOf]
        have hi' : fs[i]? = some f := by simpa using hi
        have hmem : f ∈ fs := List.mem_of_getElem? hi'
        have hpx : p x = false := by
          cases hpx : p x with
          | false => rfl
          | true =>
            exfalso
            rw [List.filter_cons, if_pos hpx, List.length_cons] at honly
            have : f ∈ fs.filter p := List.mem_filter.mpr ⟨hmem, hp⟩
            have := List.length_pos_of_mem this
            omega
        rw [List.filter_cons, hpx] at honly
        rw [hpx]
        exact ih hi' honly (by simpa using hl)

/-! ## `buildInfo` picks the last matching value -/

theorem buildInfo_country (fs vs : List Str) (ret : IpInfo) :
    (buildInfo fs vs ret).country = lastOf (fun f => decide (f = FieldCountryName)) fs vs ret.country := by
  induction fs generalizing vs ret with
  | nil => rfl
  | cons f fs ih =>
    cases vs with
    | nil => rfl
    | cons v vs =>
      rw [buildInfo, ih, lastOf]
      congr 1
      unfold setAttr
      repeat' split
      all_goals simp_all +decide

theorem buildInfo_province (fs vs : List Str) (ret : IpInfo) :
    (buildInfo fs vs ret).province = lastOf (fun f => decide (f = FieldRegionName)) fs vs ret.province := by
  induction fs generalizing vs ret with
  | nil => rfl
  | cons f fs ih =>
    cases vs with
    | nil => rfl
    | cons v vs =>
      rw [buildInfo, ih, lastOf]
      congr 1
      unfold setAttr
      repeat' split
      all_goals simp_all +decide

theorem buildInfo_city (fs vs : List Str) (ret : IpInfo) :
    (buildInfo fs vs ret).city = lastOf (fun f => decide (f = FieldCityName)) fs vs ret.city := by
  induction fs generalizing vs ret with
  | nil => rfl
  | cons f fs ih =>
    cases vs with
    | nil => rfl
    | cons v vs =>
      rw [buildInfo, ih, lastOf]
      congr 1
      unfold setAttr
      repeat' split
      all_goals simp_all +decide

theorem buildInfo_isp (fs vs : List Str) (ret : IpInfo) :
    (buildInfo fs vs ret).isp = lastOf (fun f => decide (f = FieldISPDomain)) fs vs ret.isp := by
  induction fs generalizing vs ret with
  | nil => rfl
  | cons f fs ih =>
    cases vs with
    | nil => rfl
    | cons v vs =>
      rw [buildInfo, ih, lastOf]
      congr 1
      unfold setAttr
      repeat' split
      all_goals simp_all +decide

theorem buildInfo_asn (fs vs : List Str) (ret : IpInfo) :
    (buildInfo fs vs ret).asn = lastOf (fun f => decide (f = fAsn)) fs vs ret.asn := by
  induction fs generalizing vs ret with
  | nil => rfl
  | cons f fs ih =>
    cases vs with
    | nil => rfl
    | cons v vs =>
      rw [buildInfo, ih, lastOf]
      congr 1
      unfold setAttr
      repeat' split
      all_goals simp_all +decide

theorem buildInfo_continent (fs vs : List Str) (ret : IpInfo) :
    (buildInfo fs vs ret).continent = lastOf (fun f => decide (f = FieldContinentCode)) fs vs ret.continent := by
  induction fs generalizing vs ret with
  | nil => rfl
  | cons f fs ih =>
    cases vs with
    | nil => rfl
    | cons v vs =>
      rw [buildInfo, ih, lastOf]
      congr 1
      unfold setAttr
      repeat' split
      all_goals simp_all +decide

theorem buildInfo_line (fs vs : List Str) (ret : IpInfo) :
    (buildInfo fs vs ret).line = lastOf (fun f => decide (f = fLine)) fs vs ret.line := by
  induction fs generalizing vs ret with
  | nil => rfl
  | cons f fs ih =>
    cases vs with
    | nil => rfl
    | cons v vs =>
      rw [buildInfo, ih, lastOf]
      congr 1
      unfold setAttr
      repeat' split
      all_goals simp_all +decide

theorem buildInfo_district (fs vs : List Str) (ret : IpInfo) :
    (buildInfo fs vs ret).district = lastOf (fun f => decide (f = fDistrict)) fs vs ret.district := by
  induction fs generalizing vs ret with
  | nil => rfl
  | cons f fs ih =>
    cases vs with
    | nil => rfl
    | cons v vs =>
      rw [buildInfo, ih, lastOf]
      congr 1
      unfold setAttr
      repeat' split
      all_goals simp_all +decide

/-! ## Field names after conversion -/

/-- `covertFields` on one name. -/
def conv1 (f : Str) : Str := match mapGet CommonFieldsMap f with | some g => g | none => f

theorem conv1_cases (f : Str) (P : Str → Str → Prop)
    (h1 : P fCountry FieldCountryName) (h2 : P fProvince FieldRegionName) (h3 : P fCity FieldCityName)
    (h4 : P fISP FieldISPDomain) (h5 : P fAsn fAsn) (h6 : P fContinent FieldContinentCode)
    (h7 : P fUTCOffset FieldUTCOffset) (h8 : P fLatitude FieldLatitude) (h9 : P fLongitude FieldLongitude)
    (h10 : P fChinaAdminCode FieldChinaAdminCode) (h11 : P fDistrict fDistrict) (h12 : P fLine fLine)
    (h : f ≠ fCountry → f ≠ fProvince → f ≠ fCity → f ≠ fISP → f ≠ fContinent → P f f) : P f (conv1 f) := by
  unfold conv1 CommonFieldsMap
  simp only [mapGet]
  by_cases e1 : fCountry = f
  · subst e1; simpa using h1
  by_cases e2 : fProvince = f
  · subst e2; simpa [e1] using h2
  by_cases e3 : fCity = f
  · subst e3; simpa [e1, e2] using h3
  by_cases e4 : fISP = f
  · subst e4; simpa [e1, e2, e3] using h4
  by_cases e5 : fAsn = f
  · subst e5; simpa [e1, e2, e3, e4] using h5
  by_cases e6 : fContinent = f
  · subst e6; simpa [e1, e2, e3, e4, e5] using h6
  by_cases e7 : fUTCOffset = f
  · subst e7; simpa [e1, e2, e3, e4, e5, e6] using h7
  by_cases e8 : fLatitude = f
  · subst e8; simpa [e1, e2, e3, e4, e5, e6, e7] using h8
  by_cases e9 : fLongitude = f
  · subst e9; simpa [e1, e2, e3, e4, e5, e6, e7, e8] using h9
  by_cases e10 : fChinaAdminCode = f
  · subst e10; simpa [e1, e2, e3, e4, e5, e6, e7, e8, e9] using h10
  by_cases e11 : fDistrict = f
  · subst e11; simpa [e1, e2, e3, e4, e5, e6, e7, e8, e9, e10] using h11
  by_cases e12 : fLine = f
  · subst e12; simpa [e1, e2, e3, e4, e5, e6, e7, e8, e9, e10, e11] using h12
  simpa [e1, e2, e3, e4, e5, e6, e7, e8, e9, e10, e11, e12] using
    h (Ne.symm e1) (Ne.symm e2) (Ne.symm e3) (Ne.symm e4) (Ne.symm e6)

theorem conv1_country (f : Str) : (conv1 f = FieldCountryName) ↔ f ∈ countryNames := by
  apply conv1_cases f (fun f g => (g = FieldCountryName) ↔ f ∈ countryNames)
  all_goals first
    | decide
    | (intro h1 h2 h3 h4 h5
       constructor
       · rintro rfl; decide
       · intro h
         simp only [countryNames, List.mem_cons, List.not_mem_nil, or_false] at h
         first
           | exact h
           | (rcases h with h | h
              · first | exact absurd h h1 | exact absurd h h2 | exact absurd h h3 | exact absurd h h4 | exact absurd h h5
              · exact h))

theorem conv1_province (f : Str) : (conv1 f = FieldRegionName) ↔ f ∈ provinceNames := by
  apply conv1_cases f (fun f g => (g = FieldRegionName) ↔ f ∈ provinceNames)
  all_goals first
    | decide
    | (intro h1 h2 h3 h4 h5
       constructor
       · rintro rfl; decide
       · intro h
         simp only [provinceNames, List.mem_cons, List.not_mem_nil, or_false] at h
         first
           | exact h
           | (rcases h with h | h
              · first | exact absurd h h1 | exact absurd h h2 | exact absurd h h3 | exact absurd h h4 | exact absurd h h5
              · exact h))

theorem conv1_city (f : Str) : (conv1 f = FieldCityName) ↔ f ∈ cityNames := by
  apply conv1_cases f (fun f g => (g = FieldCityName) ↔ f ∈ cityNames)
  all_goals first
    | decide
    | (intro h1 h2 h3 h4 h5
       constructor
       · rintro rfl; decide
       · intro h
         simp only [cityNames, List.mem_cons, List.not_mem_nil, or_false] at h
         first
           | exact h
           | (rcases h with h | h
              · first | exact absurd h h1 | exact absurd h h2 | exact absurd h h3 | exact absurd h h4 | exact absurd h h5
              · exact h))

theorem conv1_isp (f : Str) : (conv1 f = FieldISPDomain) ↔ f ∈ ispNames := by
  apply conv1_cases f (fun f g => (g = FieldISPDomain) ↔ f ∈ ispNames)
  all_goals first
    | decide
    | (intro h1 h2 h3 h4 h5
       constructor
       · rintro rfl; decide
       · intro h
         simp only [ispNames, List.mem_cons, List.not_mem_nil, or_false] at h
         first
           | exact h
           | (rcases h with h | h
              · first | exact absurd h h1 | exact absurd h h2 | exact absurd h h3 | exact absurd h h4 | exact absurd h h5
              · exact h))

theorem conv1_asn (f : Str) : (conv1 f = fAsn) ↔ f ∈ asnNames := by
  apply conv1_cases f (fun f g => (g = fAsn) ↔ f ∈ asnNames)
  all_goals first
    | decide
    | (intro h1 h2 h3 h4 h5
       constructor
       · rintro rfl; decide
       · intro h
         simp only [asnNames, List.mem_cons, List.not_mem_nil, or_false] at h
         first
           | exact h
           | (rcases h with h | h
              · first | exact absurd h h1 | exact absurd h h2 | exact absurd h h3 | exact absurd h h4 | exact absurd h h5
              · exact h))

theorem conv1_continent (f : Str) : (conv1 f = FieldContinentCode) ↔ f ∈ continentNames := by
  apply conv1_cases f (fun f g => (g = FieldContinentCode) ↔ f ∈ continentNames)
  all_goals first
    | decide
    | (intro h1 h2 h3 h4 h5
       constructor
       · rintro rfl; decide
       · intro h
         simp only [continentNames, List.mem_cons, List.not_mem_nil, or_false] at h
         first
           | exact h
           | (rcases h with h | h
              · first | exact absurd h h1 | exact absurd h h2 | exact absurd h h3 | exact absurd h h4 | exact absurd h h5
              · exact h))

theorem conv1_line (f : Str) : (conv1 f = fLine) ↔ f ∈ lineNames := by
  apply conv1_cases f (fun f g => (g = fLine) ↔ f ∈ lineNames)
  all_goals first
    | decide
    | (intro h1 h2 h3 h4 h5
       constructor
       · rintro rfl; decide
       · intro h
         simp only [lineNames, List.mem_cons, List.not_mem_nil, or_false] at h
         first
           | exact h
           | (rcases h with h | h
              · first | exact absurd h h1 | exact absurd h h2 | exact absurd h h3 | exact absurd h h4 | exact absurd h h5
              · exact h))

theorem conv1_district (f : Str) : (conv1 f = fDistrict) ↔ f ∈ districtNames := by
  apply conv1_cases f (fun f g => (g = fDistrict) ↔ f ∈ districtNames)
  all_goals first
    | decide
    | (intro h1 h2 h3 h4 h5
       constructor
       · rintro rfl; decide
       · intro h
         simp only [districtNames, List.mem_cons, List.not_mem_nil, or_false] at h
         first
           | exact h
           | (rcases h with h | h
              · first | exact absurd h h1 | exact absurd h h2 | exact absurd h h3 | exact absurd h h4 | exact absurd h h5
              · exact h))

theorem covertFields_eq (fs : List Str) : covertFields fs = fs.map conv1 := rfl

/-- After conversion no field is called exactly "continent". -/
theorem conv1_ne_continent (f : Str) : conv1 f ≠ fContinent := by
  apply conv1_cases f (fun _ g => g ≠ fContinent)
  all_goals first
    | decide
    | (intro _ _ _ _ h; exact h)

theorem asciiLower_attr {f : Str} (h : asciiLower f = fContinent) :
    f ≠ FieldCountryName ∧ f ≠ FieldRegionName ∧ f ≠ FieldCityName ∧ f ≠ FieldISPDomain ∧ f ≠ fAsn ∧
    f ≠ FieldContinentCode ∧ f ≠ fLine ∧ f ≠ fDistrict := by
  refine ⟨?_, ?_, ?_, ?_, ?_, ?_, ?_, ?_⟩ <;> (rintro rfl; revert h; decide)

theorem continentName_eq (s : Str) : continentName s = spellContinent s := by
  unfold spellContinent continentName continentTable
  simp only [List.find?_cons, List.find?_nil]
  by_cases e1 : gs "AS" = s
  · subst e1; rfl
  by_cases e2 : gs "EU" = s
  · subst e2; rfl
  by_cases e3 : gs "NA" = s
  · subst e3; rfl
  by_cases e4 : gs "SA" = s
  · subst e4; rfl
  by_cases e5 : gs "AF" = s
  · subst e5; rfl
  by_cases e6 : gs "OC" = s
  · subst e6; rfl
  by_cases e7 : gs "AN" = s
  · subst e7; rfl
  simp [e1, e2, e3, e4, e5, e6, e7, Ne.symm e1, Ne.symm e2, Ne.symm e3, Ne.symm e4, Ne.symm e5, Ne.symm e6, Ne.symm e7]

theorem Offset_some {s : Str} {l : List Str} {i : Nat} (h : Offset s l = some i) : l[i]? = some s := by
  induction l generalizing i with
  | nil => simp [Offset] at h
  | cons x l ih =>
    simp only [Offset] at h
    split at h
    · rename_i hx; cases h; simp [hx]
    · rw [Option.map_eq_some_iff] at h
      obtain ⟨j, hj, rfl⟩ := h
      simpa using ih hj

theorem Offset_none {s : Str} {l : List Str} (h : Offset s l = none) : s ∉ l := by
  induction l with
  | nil => simp
  | cons x l ih =>
    simp only [Offset] at h
    split at h
    · cases h
    · rename_i hx
      rw [Option.map_eq_none_iff] at h
      simp only [List.mem_cons, not_or]
      exact ⟨fun hc => hx hc.symm, ih h⟩

/-- What the reader decodes from a stored record. -/
def decoded (fields values : List Str) : List Str :=
  let cv := convD (continentIdx (covertFields fields) 0 none) values
  match Offset FieldContinentCode (covertFields fields) with
  | none => cv
  | some i => cv.modify i continentName

theorem lastOf_decoded_other {fields values : List Str} {k : Str} (hk : k ≠ FieldContinentCode)
    (hk' : asciiLower k ≠ fContinent) :
    lastOf (fun f => decide (f = k)) (covertFields fields) (decoded fields values) [] =
    lastOf (fun f => decide (f = k)) (covertFields fields) values [] := by
  have hc : lastOf (fun f => decide (f = k)) (covertFields fields)
      (convD (continentIdx (covertFields fields) 0 none) values) [] =
      lastOf (fun f => decide (f = k)) (covertFields fields) values [] := by
    unfold convD
    split
    · rfl
    · rename_i i hi
      apply lastOf_modify_other
      intro f hf
      rcases continentIdx_lt hi with ⟨_, _, f', hf', hl⟩ | hc
      · rw [Nat.sub_zero, hf] at hf'
        cases hf'
        simp only [decide_eq_false_iff_not]
        rintro rfl; exact hk' hl
      · cases hc
  rw [← hc]
  unfold decoded
  dsimp only
  split
  · rfl
  · rename_i i hi
    apply lastOf_modify_other
    intro f hf
    rw [Offset_some hi] at hf
    cases hf
    simp only [decide_eq_false_iff_not]
    exact Ne.symm hk

theorem buildInfo_decoded {fields values : List Str} (h1 : OneContinent fields) (hl : values.length = fields.length) :
    buildInfo (covertFields fields) (decoded fields values) {} = infoOf fields values := by
  have conv : ∀ (k : Str) (names : List Str), (∀ f, conv1 f = k ↔ f ∈ names) →
      lastOf (fun f => decide (f = k)) (covertFields fields) values [] = attr names fields values := by
    intro k names hn
    rw [attr_eq_lastOf, lastOf_covert]
    apply lastOf_congr
    intro f
    exact decide_eq_decide.mpr (hn f)
  have hcont : lastOf (fun f => decide (f = FieldContinentCode)) (covertFields fields) (decoded fields values) [] =
      spellContinent (attr continentNames fields values) := by
    rw [← conv _ _ conv1_continent]
    have hc : lastOf (fun f => decide (f = FieldContinentCode)) (covertFields fields)
        (convD (continentIdx (covertFields fields) 0 none) values) [] =
        lastOf (fun f => decide (f = FieldContinentCode)) (covertFields fields) values [] := by
      unfold convD
      split
      · rfl
      · rename_i i hi
        apply lastOf_modify_other
        intro f hf
        rcases continentIdx_lt hi with ⟨_, _, f', hf', hl⟩ | hc
        · rw [Nat.sub_zero, hf] at hf'
          cases hf'
          simp only [decide_eq_false_iff_not]
          exact (asciiLower_attr hl).2.2.2.2.2.1
        · cases hc
    rw [← hc, ← continentName_eq]
    unfold decoded
    dsimp only
    split
    · rename_i ho
      rw [lastOf_none]
      · rfl
      · intro f hf
        simp only [decide_eq_false_iff_not]
        rintro rfl; exact Offset_none ho hf
    · rename_i i hi
      apply lastOf_modify_only (Offset_some hi) (by simp) _ (by rw [convD_length, covertFields_length, hl])
      unfold OneContinent at h1
      rw [covertFields_eq, List.filter_map, List.length_map]
      refine Nat.le_trans (Nat.le_of_eq ?_) h1
      congr 2
      funext f
      exact decide_eq_decide.mpr (conv1_continent f)
  unfold infoOf
  rw [← hcont, ← conv _ _ conv1_country, ← conv _ _ conv1_district, ← conv _ _ conv1_province,
    ← conv _ _ conv1_city, ← conv _ _ conv1_asn, ← conv _ _ conv1_isp, ← conv _ _ conv1_line]
  rw [← lastOf_decoded_other (k := FieldCountryName) (by decide) (by decide),
    ← lastOf_decoded_other (k := fDistrict) (by decide) (by decide),
    ← lastOf_decoded_other (k := FieldRegionName) (by decide) (by decide),
    ← lastOf_decoded_other (k := FieldCityName) (by decide) (by decide),
    ← lastOf_decoded_other (k := fAsn) (by decide) (by decide),
    ← lastOf_decoded_other (k := FieldISPDomain) (by decide) (by decide),
    ← lastOf_decoded_other (k := fLine) (by decide) (by decide)]
  have e : ∀ x : IpInfo, x = ⟨x.country, x.district, x.province, x.city, x.asn, x.isp, x.continent, x.line⟩ := fun _ => rfl
  rw [e (buildInfo _ _ _), buildInfo_country, buildInfo_district, buildInfo_province, buildInfo_city, buildInfo_asn,
    buildInfo_isp, buildInfo_continent, buildInfo_line]

theorem continentCode_noTab {s : Str} (h : (0x09 : UInt8) ∉ s) : (0x09 : UInt8) ∉ continentCode s := by
  unfold continentCode
  repeat' split
  all_goals first | decide | exact h

theorem mem_modify {l : List Str} {i : Nat} {g : Str → Str} {s : Str} (h : s ∈ l.modify i g) :
    s ∈ l ∨ ∃ t ∈ l, s = g t := by
  induction l generalizing i with
  | nil => cases i <;> simp at h
  | cons x l ih =>
    cases i with
    | zero =>
      simp only [List.modify_zero_cons, List.mem_cons] at h
      rcases h with h | h
      · exact .inr ⟨x, by simp, h⟩
      · exact .inl (by simp [h])
    | succ i =>
      simp only [List.modify_succ_cons, List.mem_cons] at h
      rcases h with h | h
      · exact .inl (by simp [h])
      · rcases ih h with h | ⟨t, h, h'⟩
        · exact .inl (by simp [h])
        · exact .inr ⟨t, by simp [h], h'⟩

theorem split_storedRec {fields values : List Str} (hne : values ≠ []) (ht : ∀ v ∈ values, (0x09 : UInt8) ∉ v) :
    splitByte 0x09 (storedRec fields values) = convD (continentIdx (covertFields fields) 0 none) values := by
  unfold storedRec
  apply splitByte_joinByte
  · intro hc
    have := congrArg List.length hc
    rw [convD_length] at this
    exact hne (List.length_eq_zero_iff.mp this)
  · intro s hs
    unfold convD at hs
    split at hs
    · exact ht s hs
    · rcases mem_modify hs with h | ⟨t, h, rfl⟩
      · exact ht s h
      · exact continentCode_noTab (ht t h)

theorem decodeInfo_stored {r : Reader} {fields values : List Str} (hf : r.md.fields = covertFields fields)
    (hc : r.continentOffset = Offset FieldContinentCode (covertFields fields))
    (hl : values.length = fields.length) (hne : fields ≠ []) (ht : ∀ v ∈ values, (0x09 : UInt8) ∉ v) :
    r.decodeInfo (storedRec fields values) 0 = .ok (decoded fields values) := by
  have hvne : values ≠ [] := by
    intro hc; rw [hc] at hl; exact hne (List.length_eq_zero_iff.mp hl.symm)
  unfold Reader.decodeInfo
  rw [split_storedRec hvne ht]
  dsimp only
  rw [hf, convD_length, covertFields_length, hl, if_neg (by omega), if_neg (by omega), hc]
  simp only [Int.toNat_zero, List.drop_zero]
  rw [List.take_of_length_le (by rw [convD_length]; omega)]
  unfold decoded
  dsimp only
  cases ho : Offset FieldContinentCode (covertFields fields) with
  | none => rfl
  | some i =>
    dsimp only
    have hi : i < (convD (continentIdx (covertFields fields) 0 none) values).length := by
      rw [convD_length, hl, ← covertFields_length]
      exact (List.getElem?_eq_some_iff.mp (Offset_some ho)).1
    rw [List.getElem?_eq_getElem hi]
    dsimp only
    congr 1
    apply List.ext_getElem?
    intro j
    rw [List.getElem?_set, List.getElem?_modify]
    by_cases hj : i = j
    · subst hj; simp [List.getElem?_eq_getElem hi, hi]
    · rw [if_neg hj]; simp [hj]

end Uip.Ipdb
