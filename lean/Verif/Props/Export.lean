import Verif.Proof.Export
import Verif.Model.Ipdb.Fields
/-!
# Properties C29-C31: export rules
-/
namespace Uip.Export
open Uip Uip.Spec

/-! ## C29 -/

/-- The default fields of a rule: distinct, at least one, written without the rule's separators. -/
structure DefaultsOK (d : List Str) : Prop where
  ne : d ≠ []
  text_ne : d ≠ [[]]
  nodup : d.Nodup
  avoids : ∀ f ∈ d, Avoids [0x7C, 0x2C] f

instance (d) : Decidable (DefaultsOK d) :=
  decidable_of_iff (d ≠ [] ∧ d ≠ [[]] ∧ d.Nodup ∧ ∀ f ∈ d, Avoids [0x7C, 0x2C] f)
    ⟨fun h => ⟨h.1, h.2.1, h.2.2.1, h.2.2.2⟩, fun h => ⟨h.1, h.2, h.3, h.4⟩⟩

theorem joinByte_eq_nil {c : UInt8} {l : List Str} (hne : l ≠ []) (h : joinByte c l = []) : l = [[]] := by
  match l, hne with
  | [x], _ => simp only [joinByte] at h; rw [h]
  | x :: y :: r, _ => simp [joinByte] at h

/-- How a rule text is read. -/
theorem parse_ruleText {d : List Str} {groups : List Group} (hd : DefaultsOK d) (hg : ∀ g ∈ groups, g.WF) :
    ParseRule (ruleText d groups) = some ⟨d, groups.filterMap (fun g => parseGroup d g.text)⟩ := by
  have h1 : splitByte 0x7C (ruleText d groups) = joinByte 0x2C d :: groups.map Group.text := by
    apply splitByte_joinByte (by simp)
    intro s hs
    rw [List.mem_cons] at hs
    rcases hs with rfl | hs
    · exact (joinByte_avoids (l := [0x7C]) (by decide) (fun s hs => (hd.avoids s hs).mono (by decide))).not_mem (by decide)
    · obtain ⟨g, hg', rfl⟩ := List.mem_map.mp hs
      exact text_avoids (hg g hg')
  have h2 : ruleText d groups ≠ [] := by
    intro h
    have := joinByte_eq_nil (by simp) h
    have h3 : joinByte 0x2C d = [] := by injection this
    exact hd.text_ne (joinByte_eq_nil hd.ne h3)
  unfold ParseRule
  rw [if_neg h2, h1]
  simp only []
  rw [splitByte_joinByte hd.ne (fun s hs => (hd.avoids s hs).not_mem (by decide)), List.filterMap_map]
  rfl

/-- C29: exporting any record under any rule text gives, for each default field in order, what the
specification `exportSpec` says: the record's value of the field, or empty if it is missing or blanked by a
restriction that holds, restrictions being applied in order to the values left so far.  (`mapGet data [] = none`:
the record has no field with an empty name.) -/
theorem C29_export_rule (d : List Str) (groups : List Group) (hd : DefaultsOK d) (hg : ∀ g ∈ groups, g.WF)
    (fieldMap data : GoMap Str) (hdata : mapGet data [] = none) :
    ∃ e, ParseRule (ruleText d groups) = some e ∧ e.fields = d ∧
      e.Export (Select fieldMap e.fields) data = .ok (exportSpec fieldMap d groups data) := by
  refine ⟨_, parse_ruleText hd hg, rfl, ?_⟩
  unfold Exporter.Export
  rw [remapKey_fieldValue _ _ _ hdata]
  simp only [Res.ok_bind, Res.pure_eq]
  congr 1
  exact foldl_groups hd.nodup groups _ hg (by simp)

/-- C29, the unmatched-group clause on its own: a restriction whose condition fails leaves all values. -/
theorem C29_unmatched_group_changes_nothing (d values : List Str) (g : Group) (h : g.holds d values = false) :
    g.apply d values = values := by unfold Group.apply; rw [h]; rfl

/-- C29: a restriction whose condition holds keeps exactly the listed fields. -/
theorem C29_matched_group (d values : List Str) (g : Group)
    (h : g.holds d values = true) (i : Nat) (f v : Str) (hf : d[i]? = some f) (hv : values[i]? = some v) :
    (g.apply d values)[i]? = some (if f ∈ g.only then v else []) := by
  have hz : (d.zip values)[i]? = some (f, v) := by
    rw [List.getElem?_zip_eq_some]; exact ⟨hf, hv⟩
  unfold Group.apply; rw [if_pos h, List.getElem?_map, hz]; rfl

/-- A rule with one restriction of each kind. -/
def demoDefaults : List Str := [gs "country", gs "city", gs "isp"]
def demoGroups : List Group :=
  [⟨gs "country", true, [gs "CN", gs "US"], [gs "country"]⟩, ⟨gs "isp", false, [gs "x"], [gs "country", gs "isp"]⟩]

example : DefaultsOK demoDefaults ∧ (∀ g ∈ demoGroups, g.WF) ∧
    ruleText demoDefaults demoGroups = gs "country,city,isp|country=!CN/US:country|isp=x:country,isp" ∧
    exportSpec [(gs "country", gs "c"), (gs "city", gs "t"), (gs "isp", gs "i")] demoDefaults demoGroups
      [(gs "c", gs "US"), (gs "t", gs "NY"), (gs "i", gs "x")] = [gs "US", [], gs "x"] := by decide +kernel

/-- C29: the hypothesis on empty field names is needed: a default field the database does not have takes the
record's value for the empty name. -/
theorem C29_empty_name_leaks : ∃ d fieldMap data e, DefaultsOK d ∧ ParseRule (ruleText d []) = some e ∧
    e.Export (Select fieldMap e.fields) data ≠ .ok (exportSpec fieldMap d [] data) := by
  refine ⟨[gs "x"], [], [([], gs "y")], ⟨[gs "x"], []⟩, by decide +kernel, by decide +kernel, by decide +kernel⟩

/-! ## C30 -/

/-- C30: whatever the rule text, exporting succeeds, gives one value per field of the rule, and each value is
empty or the record's value of that field. -/
theorem C30_export_never_invents (rule : Str) (e : Exporter) (_h : ParseRule rule = some e)
    (fieldMap data : GoMap Str) (hdata : mapGet data [] = none) :
    ∃ out, e.Export (Select fieldMap e.fields) data = .ok out ∧ out.length = e.fields.length ∧
      ∀ (i : Nat) (f v : Str), e.fields[i]? = some f → out[i]? = some v → v = [] ∨ v = fieldValue fieldMap data f := by
  unfold Exporter.Export
  rw [remapKey_fieldValue _ _ _ hdata]
  refine ⟨_, rfl, by rw [filters_length, List.length_map], ?_⟩
  intro i f v hf hv
  rcases filters_value _ _ _ _ hv with h | h
  · exact .inl h
  · right
    rw [List.getElem?_map, hf] at h
    simpa using h.symm

/-- C30: the fields of any rule are the comma-separated parts of what precedes the first `|`. -/
theorem C30_rule_fields (rule : Str) (hne : rule ≠ []) :
    ∃ e, ParseRule rule = some e ∧ some (joinByte 0x2C e.fields) = (splitByte 0x7C rule).head? ∧ e.fields ≠ [] := by
  have hj : ∀ s : Str, joinByte 0x2C (splitByte 0x2C s) = s := by
    intro s
    induction s with
    | nil => rfl
    | cons b bs ih =>
      simp only [splitByte]
      obtain ⟨p, ps, hp⟩ := List.exists_cons_of_ne_nil (splitByte_ne_nil 0x2C bs)
      split
      · rename_i h; subst h; rw [hp, joinByte, ← hp, ih]; rfl
      · rw [hp]
        simp only []
        rw [hp] at ih
        cases ps with
        | nil => simp only [joinByte] at ih ⊢; rw [ih]
        | cons q qs => simp only [joinByte, List.cons_append] at ih ⊢; rw [ih]
  unfold ParseRule
  rw [if_neg hne]
  obtain ⟨p, ps, hp⟩ := List.exists_cons_of_ne_nil (splitByte_ne_nil 0x7C rule)
  rw [hp]
  exact ⟨_, rfl, by simp [hj], splitByte_ne_nil _ _⟩

example : (ParseRule DefaultRule).map (fun e => (e.fields.length, e.filters.length)) = some (7, 2) := by
  decide +kernel

/-! ## C31 -/

/-- The seven fields of the default rule. -/
def sevenFields : List Str :=
  [gs "country", gs "province", gs "city", gs "isp", gs "asn", gs "continent", gs "district"]

/-- What the README says the default rule keeps of a record with these seven values. -/
def defaultKeeps (country province city isp asn continent district : Str) : List Str :=
  if country ≠ gs "中国" then [country, [], [], [], [], continent, []]
  else if province = gs "台湾" ∨ province = gs "中国台湾" then [country, province, [], [], [], continent, district]
  else [country, province, city, isp, asn, continent, district]

/-- C31: the default rule, on every record (`value f` is the record's value of the field `f`). -/
theorem C31_default_rule (fieldMap data : GoMap Str) (hdata : mapGet data [] = none) :
    let value := fieldValue fieldMap data
    ∃ e, ParseRule DefaultRule = some e ∧ e.fields = sevenFields ∧
      e.Export (Select fieldMap e.fields) data = .ok (defaultKeeps (value (gs "country")) (value (gs "province"))
        (value (gs "city")) (value (gs "isp")) (value (gs "asn")) (value (gs "continent")) (value (gs "district"))) := by
  intro value
  have hr : DefaultRule = ruleText sevenFields
      [⟨gs "country", true, [gs "中国"], [gs "country", gs "continent"]⟩,
       ⟨gs "province", false, [gs "台湾", gs "中国台湾"], [gs "country", gs "province", gs "continent", gs "district"]⟩] := by
    decide +kernel
  obtain ⟨e, h1, h2, h3⟩ := C29_export_rule sevenFields
      [⟨gs "country", true, [gs "中国"], [gs "country", gs "continent"]⟩,
       ⟨gs "province", false, [gs "台湾", gs "中国台湾"], [gs "country", gs "province", gs "continent", gs "district"]⟩]
      (by decide +kernel) (by decide +kernel) fieldMap data hdata
  refine ⟨e, by rw [hr]; exact h1, h2, ?_⟩
  refine h3.trans (congrArg Res.ok ?_)
  unfold exportSpec
  have hv : sevenFields.map value = [value (gs "country"), value (gs "province"),
        value (gs "city"), value (gs "isp"), value (gs "asn"), value (gs "continent"), value (gs "district")] := rfl
  change List.foldl _ (sevenFields.map value) _ = _
  rw [hv]
  clear_value value
  generalize value (gs "country") = c
  generalize value (gs "province") = p
  generalize value (gs "city") = t
  generalize value (gs "isp") = i
  generalize value (gs "asn") = a
  generalize value (gs "continent") = k
  generalize value (gs "district") = s
  have e1 : ∀ (a b c d e f g : Str), valueOf sevenFields [a, b, c, d, e, f, g] (gs "country") = some a := by
    intros; simp [valueOf, sevenFields]
  have e2 : ∀ (a b c d e f g : Str), valueOf sevenFields [a, b, c, d, e, f, g] (gs "province") = some b := by
    intros; simp +decide [valueOf, sevenFields]
  have a1 : ∀ (a b c d e f g : Str), Group.apply sevenFields [a, b, c, d, e, f, g]
      ⟨gs "country", true, [gs "中国"], [gs "country", gs "continent"]⟩ =
        if a = gs "中国" then [a, b, c, d, e, f, g] else [a, [], [], [], [], f, []] := by
    intros
    have : (gs "country" ∈ sevenFields) ∧ ([gs "country", gs "continent"].all (fun f => decide (f ∈ sevenFields)) = true) := by
      decide +kernel
    rename_i a b c d e f g
    have hh : Group.holds ⟨gs "country", true, [gs "中国"], [gs "country", gs "continent"]⟩ sevenFields
        [a, b, c, d, e, f, g] = decide (a ≠ gs "中国") := by
      simp only [Group.holds, e1, this.1, this.2]; simp
    unfold Group.apply
    rw [hh]
    by_cases ha : a = gs "中国"
    · rw [if_neg (by simpa using ha), if_pos ha]
    · rw [if_pos (by simpa using ha), if_neg ha]; simp +decide [sevenFields]
  have a2 : ∀ (a b c d e f g : Str), Group.apply sevenFields [a, b, c, d, e, f, g]
      ⟨gs "province", false, [gs "台湾", gs "中国台湾"], [gs "country", gs "province", gs "continent", gs "district"]⟩ =
        if b = gs "台湾" ∨ b = gs "中国台湾" then [a, b, [], [], [], f, g] else [a, b, c, d, e, f, g] := by
    intros
    have : (gs "province" ∈ sevenFields) ∧ ([gs "country", gs "province", gs "continent", gs "district"].all
        (fun f => decide (f ∈ sevenFields)) = true) := by decide +kernel
    rename_i a b c d e f g
    have hh : Group.holds ⟨gs "province", false, [gs "台湾", gs "中国台湾"],
        [gs "country", gs "province", gs "continent", gs "district"]⟩ sevenFields
        [a, b, c, d, e, f, g] = decide (b = gs "台湾" ∨ b = gs "中国台湾") := by
      simp only [Group.holds, e2, this.1, this.2]; simp
    unfold Group.apply
    rw [hh]
    by_cases ha : b = gs "台湾" ∨ b = gs "中国台湾"
    · rw [if_pos (by simpa using ha), if_pos ha]; simp +decide [sevenFields]
    · rw [if_neg (by simpa using ha), if_neg ha]
  simp only [List.foldl_cons, List.foldl_nil]
  rw [a1]
  unfold defaultKeeps
  by_cases hc : c = gs "中国"
  · rw [if_pos hc, a2, if_neg (show ¬ c ≠ gs "中国" from fun h => h hc)]
  · rw [if_neg hc, a2, if_pos hc, if_neg (by decide +kernel)]

/-- C31 is not vacuous: all three cases occur with the ipdb field map. -/
example :
    let e := (ParseRule DefaultRule).get (by decide +kernel)
    let rec_ (c p : Str) : GoMap Str := [(gs "country_name", c), (gs "region_name", p), (gs "city_name", gs "t"),
      (gs "isp_domain", gs "i"), (gs "asn", gs "1"), (gs "continent_code", gs "k"), (gs "district", gs "d")]
    e.Export (Select Ipdb.CommonFieldsMap e.fields) (rec_ (gs "US") (gs "NY")) =
      .ok [gs "US", [], [], [], [], gs "k", []] ∧
    e.Export (Select Ipdb.CommonFieldsMap e.fields) (rec_ (gs "中国") (gs "台湾")) =
      .ok [gs "中国", gs "台湾", [], [], [], gs "k", gs "d"] ∧
    e.Export (Select Ipdb.CommonFieldsMap e.fields) (rec_ (gs "中国") (gs "浙江")) =
      .ok [gs "中国", gs "浙江", gs "t", gs "i", gs "1", gs "k", gs "d"] := by decide +kernel

end Uip.Export
