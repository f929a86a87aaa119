import Verif.Spec.AnyDump
import Verif.Props.AnyFile
import Verif.Props.Dump
/-!
# Property C127: dumps and lookups of ipdb files of any origin
-/
namespace Uip.Ipdb
open Uip Uip.Spec

/-! ## Columns -/

theorem fillMap_last {fs vs : List Str} {m0 m : GoMap Str} (hl : vs.length = fs.length) (h : fillMap fs vs m0 = .ok m) (c : Str) :
    mapGet m c = if c ∈ fs then some (lastOf (fun f => decide (f = c)) fs vs ((mapGet m0 c).getD [])) else mapGet m0 c := by
  induction fs generalizing vs m0 with
  | nil => unfold fillMap at h; cases h; simp
  | cons f fs ih =>
    cases vs with
    | nil => simp at hl
    | cons v vs =>
      unfold fillMap at h
      rw [ih (by simpa using hl) h]
      by_cases hc : c ∈ fs
      · rw [if_pos hc, if_pos (List.mem_cons_of_mem _ hc), lastOf]
        by_cases hf : f = c
        · subst hf; simp [mapSet, mapGet]
        · simp [mapSet, mapGet, hf]
      · rw [if_neg hc]
        by_cases hf : f = c
        · subst hf
          rw [if_pos (by simp), lastOf, lastOf_none (by intro g hg; simp only [decide_eq_false_iff_not]; rintro rfl; exact hc hg)]
          simp [mapSet, mapGet]
        · have hne : c ≠ f := fun e => hf e.symm
          rw [if_neg (by simp [hc, hne])]
          simp [mapSet, mapGet, hf]

theorem spelled_length {fields cols : List Str} : (spelled fields cols).length = cols.length := by
  unfold spelled
  split
  · rfl
  · exact List.length_modify _ _ _

/-- The last column of a name, after the continent has been spelled out. -/
theorem spelled_last {fields cols : List Str} (hl : cols.length = fields.length)
    (h1 : (fields.filter fun f => decide (f = gs "continent_code")).length ≤ 1) (c : Str) :
    lastOf (fun f => decide (f = c)) fields (spelled fields cols) [] =
      if c = gs "continent_code" then spellContinent (attr [c] fields cols) else attr [c] fields cols := by
  by_cases hc : c = gs "continent_code"
  · rw [if_pos hc]
    subst hc
    rw [attr_one, ← continentName_eq]
    unfold spelled
    split
    · rename_i ho
      have hn : ∀ f ∈ fields, decide (f = gs "continent_code") = false := by
        intro f hf
        simp only [decide_eq_false_iff_not]
        rintro rfl; exact Offset_none ho hf
      rw [lastOf_none hn]
      rfl
    · rename_i i hi
      exact lastOf_modify_only (Offset_some hi) (by simp [FieldContinentCode]) h1 hl
  · rw [if_neg hc, attr_one]
    unfold spelled
    split
    · rfl
    · rename_i i hi
      apply lastOf_modify_other
      intro f hf
      rw [Offset_some hi] at hf
      cases hf
      simp only [decide_eq_false_iff_not]
      exact Ne.symm hc

/-- A record that is long enough is split into the columns of the language. -/
theorem decode_columns {r : Reader} {m : MetaData} (hm : r.md = m) (hc : r.continentOffset = Offset FieldContinentCode m.fields)
    {off : Nat} {rec : Bytes} (h : off + m.fields.length ≤ (splitByte 0x09 rec).length) :
    (columns m off rec).length = m.fields.length ∧ r.decodeInfo rec off = .ok (spelled m.fields (columns m off rec)) := by
  have hcl : (columns m off rec).length = m.fields.length := by
    unfold columns; rw [List.length_take, List.length_drop]; omega
  refine ⟨hcl, ?_⟩
  unfold Reader.decodeInfo spelled
  simp only []
  rw [hm, if_neg (by omega), if_neg (by omega), hc]
  show (match Offset FieldContinentCode m.fields with
    | none => Res.ok (columns m off rec)
    | some i => match (columns m off rec)[i]? with
      | none => .panic
      | some v => .ok ((columns m off rec).set i (continentName v))) = _
  cases ho : Offset FieldContinentCode m.fields with
  | none => rfl
  | some i =>
    have hi := (List.getElem?_eq_some_iff.mp (Offset_some ho)).1
    simp only []
    rw [List.getElem?_eq_getElem (by omega)]
    simp only []
    refine congrArg Res.ok ?_
    apply List.ext_getElem?
    intro k
    rw [List.getElem?_modify, List.getElem?_set]
    by_cases hik : i = k
    · subst hik
      rw [if_pos rfl, if_pos (by omega), List.getElem?_eq_getElem (by omega)]
      simp
    · rw [if_neg hik]
      cases (columns m off rec)[k]? <;> simp [hik]

variable {dec : Bytes → Option MetaData} {file : Bytes} {m : MetaData}

theorem taken_valid {a : IP} (ha : Taken m a) : ValidIP a := by
  rcases ha with ⟨h, _⟩ | ⟨h, _⟩
  · exact .inl h
  · exact .inr h

/-- **C127 (columns).** A well-formed file of any origin opens if it has the language; an address that has a record gets the network
of its path and, for every column, what the record says in this language, if it has enough columns; otherwise an error. -/
theorem C127_columns {lang : Str} {off : Nat} (hdec : dec (jsonBlock file) = some m) (hw : WellFormed m file)
    (hl : mapGet m.languages lang = some (off : Int)) (hc : (m.fields.filter fun f => decide (f = gs "continent_code")).length ≤ 1) :
    ∃ r, newReaderFromBytes dec file = .ok r ∧ ∀ a rec depth, Taken m a → HasRecord m file a rec depth →
      (off + m.fields.length ≤ (splitByte 0x09 rec).length → ∃ n i, r.findMap a lang = .ok (n, i) ∧ NetworkAt a depth n ∧
        ∀ c, mapGet i c = columnValue m (columns m off rec) c) ∧
      ((splitByte 0x09 rec).length < off + m.fields.length → r.findMap a lang = .err .databaseError) := by
  obtain ⟨N, hp⟩ := parts hw
  obtain ⟨r, hr, hm, hd, hfs, hn, hco⟩ := go_open_any hp hw.fields hl hdec
  refine ⟨r, hr, fun a rec depth ha hrec => ?_⟩
  obtain ⟨node, hfind⟩ := go_find0 hr hm hd hn hfs hp ha hrec
  have hv := taken_valid ha
  constructor
  · intro hlen
    obtain ⟨hcl, hdi⟩ := decode_columns hm hco hlen
    obtain ⟨i, hi⟩ := Dump.fillMap_total (fs := m.fields) (vs := spelled m.fields (columns m off rec)) (by rw [spelled_length, hcl]) []
    obtain ⟨mask, hmask⟩ : ∃ mask : Nat, mask = if (To4 a).isSome then depth - 96 else depth := ⟨_, rfl⟩
    rw [← hmask] at hfind
    refine ⟨IpNet a mask, i, ?_, ?_, fun c => ?_⟩
    · unfold Reader.findMap Reader.find1
      rw [hm, hl]
      simp only [hfind, hdi, Res.ok_bind, Res.pure_eq, hi]
    · obtain ⟨hmk, _, _⟩ := find0_mask (newReader_cacheOK hr) hfind
      obtain ⟨k1, k2, k3, k4⟩ := C04_ip_net a hv _ hmk
      refine ⟨k1, k4, ?_⟩
      have := To4_isSome_iff hv
      by_cases hx : (To4 a).isSome = true
      · rw [if_pos (this.mp hx)]
        rw [if_pos hx] at k3 hmask
        exact ⟨k3, k2.trans hmask⟩
      · rw [if_neg (fun hy => hx (this.mpr hy))]
        rw [if_neg hx] at k3 hmask
        exact ⟨k3, k2.trans hmask⟩
    · rw [fillMap_last (by rw [spelled_length, hcl]) hi c, show ((mapGet ([] : GoMap Str) c).getD []) = [] from rfl, spelled_last hcl hc]
      rfl
  · intro hlen
    unfold Reader.findMap Reader.find1
    rw [hm, hl]
    simp only [hfind, Res.ok_bind]
    unfold Reader.decodeInfo
    simp only []
    rw [hm, if_pos (by omega)]
    rfl

/-- **C127 (other languages).** Asked for a language the file does not have, it says so, for every address. -/
theorem C127_no_language {r : Reader} {lang : Str} (_hr : newReaderFromBytes dec file = .ok r)
    (hl : mapGet r.md.languages lang = none) (a : IP) : r.findMap a lang = .err .noSupportLanguage := by
  unfold Reader.findMap Reader.find1
  rw [hl]
  rfl

theorem column_of (f : Str) : mapGet CommonFieldsMap f = ((columnOf.find? fun p => decide (p.1 = f)).map (·.2)) := by
  have h : CommonFieldsMap = columnOf := by decide +kernel
  rw [h]
  generalize columnOf = l
  induction l with
  | nil => rfl
  | cons p l ih =>
    rw [List.find?_cons]
    unfold mapGet
    by_cases hp : p.1 = f
    · rw [if_pos hp, decide_eq_true hp]; rfl
    · rw [if_neg hp, decide_eq_false hp]; exact ih

theorem attr_country (q : IpInfo) : attributeOf q (gs "country") = some q.country := by
  unfold attributeOf
  rw [if_pos rfl]
theorem attr_province (q : IpInfo) : attributeOf q (gs "province") = some q.province := by
  unfold attributeOf
  rw [if_neg (by decide +kernel), if_pos rfl]
theorem attr_city (q : IpInfo) : attributeOf q (gs "city") = some q.city := by
  unfold attributeOf
  rw [if_neg (by decide +kernel), if_neg (by decide +kernel), if_pos rfl]
theorem attr_isp (q : IpInfo) : attributeOf q (gs "isp") = some q.isp := by
  unfold attributeOf
  rw [if_neg (by decide +kernel), if_neg (by decide +kernel), if_neg (by decide +kernel), if_pos rfl]
theorem attr_asn (q : IpInfo) : attributeOf q (gs "asn") = some q.asn := by
  unfold attributeOf
  rw [if_neg (by decide +kernel), if_neg (by decide +kernel), if_neg (by decide +kernel), if_neg (by decide +kernel), if_pos rfl]
theorem attr_continent (q : IpInfo) : attributeOf q (gs "continent") = some q.continent := by
  unfold attributeOf
  rw [if_neg (by decide +kernel), if_neg (by decide +kernel), if_neg (by decide +kernel), if_neg (by decide +kernel), if_neg (by decide +kernel), if_pos rfl]
theorem attr_district (q : IpInfo) : attributeOf q (gs "district") = some q.district := by
  unfold attributeOf
  rw [if_neg (by decide +kernel), if_neg (by decide +kernel), if_neg (by decide +kernel), if_neg (by decide +kernel), if_neg (by decide +kernel), if_neg (by decide +kernel), if_pos rfl]
theorem attr_line (q : IpInfo) : attributeOf q (gs "line") = some q.line := by
  unfold attributeOf
  rw [if_neg (by decide +kernel), if_neg (by decide +kernel), if_neg (by decide +kernel), if_neg (by decide +kernel), if_neg (by decide +kernel), if_neg (by decide +kernel), if_neg (by decide +kernel), if_pos rfl]

variable {fmtDate : Int → Str} {fuel : Nat}

/-- **C127 (dumps).** In a dump without a rule, the row that covers an address with a record has the network of its path and, for
every field, the value of its column in the language CN. -/
theorem C127_dump {off : Nat} (hdec : dec (jsonBlock file) = some m) (hw : WellFormed m file)
    (hl : mapGet m.languages (gs "CN") = some (off : Int)) (hc : (m.fields.filter fun f => decide (f = gs "continent_code")).length ≤ 1) :
    ∃ r, newReaderFromBytes dec file = .ok r ∧ ∀ d, Ipdb.dump fuel dec fmtDate file none = some (.ok d) →
      ∀ a rec depth x, Dump.Walked (r.version fmtDate) a → Taken m a → HasRecord m file a rec depth → x ∈ d.ips →
        Covers x.cidr (addrNum a) →
        NetworkAt a depth x.cidr ∧ x.values = d.fields.map (dumpedValue m (columns m off rec)) := by
  obtain ⟨r, hr, h⟩ := C127_columns hdec hw hl hc
  refine ⟨r, hr, fun d hd a rec depth x hwa ha hrec hx hcov => ?_⟩
  obtain ⟨info, h1, h2⟩ := Dump.C25_ipdb hr hd a hwa x hx hcov
  obtain ⟨k1, k2⟩ := h a rec depth ha hrec
  by_cases hlen : off + m.fields.length ≤ (splitByte 0x09 rec).length
  · obtain ⟨n, i, k3, k4, k5⟩ := k1 hlen
    rw [h1] at k3
    have k3 := Res.ok.inj k3
    rw [Prod.mk.injEq] at k3
    obtain ⟨e1, rfl⟩ := k3
    refine ⟨e1 ▸ k4, ?_⟩
    unfold Export.rowValues at h2
    rw [← Res.ok.inj h2]
    refine List.map_congr_left fun f _ => ?_
    unfold dumpedValue
    rw [column_of f]
    cases columnOf.find? (fun p => decide (p.1 = f)) with
    | none => rfl
    | some p =>
      simp only [Option.map_some]
      rw [k5]
      cases columnValue m (columns m off rec) p.2 <;> rfl
  · rw [k2 (by omega)] at h1
    cases h1

/-- **C127 (dumps and lookups).** The row of a dump without a rule that covers an address with a record has what `Query` answers:
the prefix length, and for every dumped field that is an attribute of answers, its value. -/
theorem C127_agree {off : Nat} (hdec : dec (jsonBlock file) = some m) (hw : WellFormed m file)
    (hl : mapGet m.languages (gs "CN") = some (off : Int)) (hc : (m.fields.filter fun f => decide (f = gs "continent_code")).length ≤ 1) :
    ∃ g, newQuerier dec file = .ok g ∧ ∀ d, Ipdb.dump fuel dec fmtDate file none = some (.ok d) →
      ∀ a rec depth x, Dump.Walked (g.r.version fmtDate) a → Taken m a → HasRecord m file a rec depth → x ∈ d.ips →
        Covers x.cidr (addrNum a) →
        ∃ q, g.Query a = .ok (q, pfx x.cidr) ∧ x.values.length = d.fields.length ∧
          ∀ (i : Nat) f v, d.fields[i]? = some f → attributeOf q f = some v → x.values[i]? = some v := by
  obtain ⟨r, hr, h⟩ := C127_dump (fmtDate := fmtDate) (fuel := fuel) hdec hw hl hc
  obtain ⟨r', hr', h'⟩ := C127_columns hdec hw hl hc
  rw [hr] at hr'
  have e := Res.ok.inj hr'
  subst e
  refine ⟨⟨r, []⟩, by unfold newQuerier; rw [hr]; rfl, fun d hd a rec depth x hwa ha hrec hx hcov => ?_⟩
  obtain ⟨hnet, hvals⟩ := h d hd a rec depth x hwa ha hrec hx hcov
  obtain ⟨info, h1, _⟩ := Dump.C25_ipdb hr hd a hwa x hx hcov
  obtain ⟨_, k2⟩ := h' a rec depth ha hrec
  have hlen : off + m.fields.length ≤ (splitByte 0x09 rec).length := by
    refine Decidable.byContradiction fun hn => ?_
    rw [k2 (by omega)] at h1
    cases h1
  obtain ⟨N, hp⟩ := parts hw
  obtain ⟨r', hr', hm, hd', hfs, hn, hco⟩ := go_open_any hp hw.fields hl hdec
  rw [hr] at hr'
  have e := Res.ok.inj hr'
  subst e
  obtain ⟨node, hfind⟩ := go_find0 hr hm hd' hn hfs hp ha hrec
  obtain ⟨hcl, hdi⟩ := decode_columns hm hco hlen
  refine ⟨fileInfo m.fields (columns m off rec), ?_, by rw [hvals, List.length_map], fun i f v hf ha' => ?_⟩
  · rw [Query_find0 hfind, hm, hl]
    simp only [hdi, Res.ok_bind]
    rw [go_info hcl hc]
    have hv := taken_valid ha
    have := To4_isSome_iff hv
    obtain ⟨_, _, hn⟩ := hnet
    by_cases hx : (To4 a).isSome = true
    · rw [if_pos (this.mp hx)] at hn
      rw [if_pos hx, hn.2]
    · rw [if_neg (fun hy => hx (this.mpr hy))] at hn
      rw [if_neg hx, hn.2]
  · rw [hvals, List.getElem?_map, hf]
    simp only [Option.map_some, Option.some.injEq]
    have hin : f ∈ d.fields := List.mem_of_getElem? hf
    rw [Dump.C25_fields hr hd] at hin
    simp only [List.mem_flatMap] at hin
    obtain ⟨c, hcm, hin⟩ := hin
    obtain ⟨p, hp1, rfl⟩ := List.mem_map.mp hin
    rw [List.mem_filter] at hp1
    obtain ⟨hp1, hp2⟩ := hp1
    simp only [decide_eq_true_eq] at hp2
    subst hp2
    rw [hm] at hcm
    have key : ∀ p ∈ Dump.dumpNames, (columnOf.find? fun q => decide (q.1 = p.2)) = some (p.2, p.1) := by decide +kernel
    unfold dumpedValue
    rw [key p hp1]
    simp only []
    unfold columnValue
    rw [if_pos hcm]
    simp only [Option.getD_some]
    have all : ∀ p ∈ Dump.dumpNames,
        (p.2 = gs "country" ∧ p.1 = gs "country_name") ∨ (p.2 = gs "province" ∧ p.1 = gs "region_name") ∨
        (p.2 = gs "city" ∧ p.1 = gs "city_name") ∨ (p.2 = gs "isp" ∧ p.1 = gs "isp_domain") ∨ (p.2 = gs "asn" ∧ p.1 = gs "asn") ∨
        (p.2 = gs "continent" ∧ p.1 = gs "continent_code") ∨ (p.2 = gs "district" ∧ p.1 = gs "district") ∨
        (p.2 = gs "line" ∧ p.1 = gs "line") ∨ attributeOf (fileInfo m.fields (columns m off rec)) p.2 = none := by
      have names : ∀ p ∈ Dump.dumpNames,
        (p.2 = gs "country" ∧ p.1 = gs "country_name") ∨ (p.2 = gs "province" ∧ p.1 = gs "region_name") ∨
        (p.2 = gs "city" ∧ p.1 = gs "city_name") ∨ (p.2 = gs "isp" ∧ p.1 = gs "isp_domain") ∨ (p.2 = gs "asn" ∧ p.1 = gs "asn") ∨
        (p.2 = gs "continent" ∧ p.1 = gs "continent_code") ∨ (p.2 = gs "district" ∧ p.1 = gs "district") ∨
        (p.2 = gs "line" ∧ p.1 = gs "line") ∨ (p.2 ≠ gs "country" ∧ p.2 ≠ gs "province" ∧ p.2 ≠ gs "city" ∧ p.2 ≠ gs "isp" ∧
          p.2 ≠ gs "asn" ∧ p.2 ≠ gs "continent" ∧ p.2 ≠ gs "district" ∧ p.2 ≠ gs "line") := by decide +kernel
      intro p hp
      rcases names p hp with h | h | h | h | h | h | h | h | ⟨n1, n2, n3, n4, n5, n6, n7, n8⟩
      · exact .inl h
      · exact .inr (.inl h)
      · exact .inr (.inr (.inl h))
      · exact .inr (.inr (.inr (.inl h)))
      · exact .inr (.inr (.inr (.inr (.inl h))))
      · exact .inr (.inr (.inr (.inr (.inr (.inl h)))))
      · exact .inr (.inr (.inr (.inr (.inr (.inr (.inl h))))))
      · exact .inr (.inr (.inr (.inr (.inr (.inr (.inr (.inl h)))))))
      · refine .inr (.inr (.inr (.inr (.inr (.inr (.inr (.inr ?_)))))))
        unfold attributeOf
        rw [if_neg n1, if_neg n2, if_neg n3, if_neg n4, if_neg n5, if_neg n6, if_neg n7, if_neg n8]
    rcases all p hp1 with ⟨e2, e1⟩ | ⟨e2, e1⟩ | ⟨e2, e1⟩ | ⟨e2, e1⟩ | ⟨e2, e1⟩ | ⟨e2, e1⟩ | ⟨e2, e1⟩ | ⟨e2, e1⟩ | e2
    · rw [e2, attr_country] at ha'
      rw [e1, if_neg (by decide +kernel), ← Option.some.inj ha']
      rfl
    · rw [e2, attr_province] at ha'
      rw [e1, if_neg (by decide +kernel), ← Option.some.inj ha']
      rfl
    · rw [e2, attr_city] at ha'
      rw [e1, if_neg (by decide +kernel), ← Option.some.inj ha']
      rfl
    · rw [e2, attr_isp] at ha'
      rw [e1, if_neg (by decide +kernel), ← Option.some.inj ha']
      rfl
    · rw [e2, attr_asn] at ha'
      rw [e1, if_neg (by decide +kernel), ← Option.some.inj ha']
      rfl
    · rw [e2, attr_continent] at ha'
      rw [e1, if_pos rfl, ← Option.some.inj ha']
      rfl
    · rw [e2, attr_district] at ha'
      rw [e1, if_neg (by decide +kernel), ← Option.some.inj ha']
      rfl
    · rw [e2, attr_line] at ha'
      rw [e1, if_neg (by decide +kernel), ← Option.some.inj ha']
      rfl
    · rw [e2] at ha'; cases ha'

/-! ## Examples -/

/-- Asked for English, the file with the Chinese columns behind the English ones gives the English columns. -/
example : ∃ r n i, newReaderFromBytes decMeta lastLangFile = .ok r ∧ r.findMap (List.replicate 16 255) (gs "EN") = .ok (n, i) ∧
    NetworkAt (List.replicate 16 255) 1 n ∧ mapGet i (gs "country_name") = some (gs "China") ∧
    mapGet i (gs "continent_code") = some (gs "亚洲") ∧ mapGet i (gs "city_name") = none := by
  have hdec : decMeta (jsonBlock lastLangFile) = some lastLang := by decide +kernel
  obtain ⟨r, h1, h2⟩ := C127_columns (lang := gs "EN") (off := 0) hdec lastLang_wellFormed (by decide +kernel) (by decide +kernel)
  obtain ⟨h3, _⟩ := h2 (List.replicate 16 255) (gs "China\t4134\tAS\t中国\t4134\tAS") 1
    (.inr ⟨rfl, by show lastLang.ipVersion &&& 2 = 2; decide, fun h => absurd h (by decide +kernel)⟩)
    ⟨List.replicate 16 255, 2, 0, 28, [], rfl, by rw [lastLang_body]; decide +kernel, by decide,
      by rw [lastLang_body]; decide +kernel, by decide +kernel⟩
  obtain ⟨n, i, h4, h5, h6⟩ := h3 (by decide +kernel)
  exact ⟨r, n, i, h1, h4, h5, by rw [h6]; decide +kernel, by rw [h6]; decide +kernel, by rw [h6]; decide +kernel⟩

/-- A file in two languages, the Chinese columns behind the English ones, in which every IPv6 address has a record. -/
def fullLang : MetaData := { twoLang with languages := [(gs "CN", 3), (gs "EN", 0)], totalSize := 61 }
def fullLangBody : Bytes := [0, 0, 0, 2, 0, 0, 0, 32, 0] ++ [0, 28] ++ gs "China\t4134\tAS\t中国\t4134\tAS" ++ [0, 20] ++ gs "USA\t1\tNA\t美国\t1\tNA"
def fullLangFile : Bytes := Exact.fileOf fullLang fullLangBody

theorem fullLang_body : fileBody fullLangFile = fullLangBody := by decide +kernel

theorem fullLang_wellFormed : WellFormed fullLang fullLangFile := by
  refine ⟨by decide +kernel, by decide +kernel, by decide, by decide, ?_, by decide⟩
  rw [fullLang_body]
  intro i b v hi hv
  have hi0 : i = 0 := by have : (i : Int) < 1 := hi; omega
  subst hi0
  have h1 : child fullLangBody 0 false = some 2 := by decide +kernel
  have h2 : child fullLangBody 0 true = some 32 := by decide +kernel
  cases b
  · rw [h1] at hv; cases hv; decide
  · rw [h2] at hv; cases hv; decide

/-- Its dump. -/
def fullLangDump : IpData :=
  ⟨[gs "country", gs "asn", gs "continent"], ⟨2, 1, 0, gs "ipip.net-", [gs "CN", gs "EN"], []⟩,
    [⟨⟨List.replicate 16 0, 128 :: List.replicate 15 0⟩, [gs "中国", gs "4134", gs "亚洲"]⟩,
     ⟨⟨128 :: List.replicate 15 0, 128 :: List.replicate 15 0⟩, [gs "美国", gs "1", gs "北美洲"]⟩]⟩

theorem fullLang_dump : Ipdb.dump 9 decMeta (fun _ => []) fullLangFile none = some (.ok fullLangDump) := by decide +kernel

/-- `C127_agree` on it: its hypotheses hold of an address in the second row, and the answer is the row. -/
example : ∃ g q, newQuerier decMeta fullLangFile = .ok g ∧ g.Query (List.replicate 16 255) = .ok (q, 1) ∧
    q.country = gs "美国" ∧ q.asn = gs "1" ∧ q.continent = gs "北美洲" := by
  have hdec : decMeta (jsonBlock fullLangFile) = some fullLang := by decide +kernel
  obtain ⟨g, h1, h2⟩ := C127_agree (fmtDate := fun _ => []) (fuel := 9) (off := 3) hdec fullLang_wellFormed (by decide +kernel) (by decide +kernel)
  have hv : (g.r.version fun _ => []) = fullLangDump.version := by
    have hr : newReaderFromBytes decMeta fullLangFile = .ok g.r := by
      unfold newQuerier at h1
      obtain ⟨r, h3, h4⟩ := Res.bind_eq_ok.mp h1
      rw [h3, ← Res.ok.inj h4]
    have e := fullLang_dump
    unfold Ipdb.dump at e
    rw [hr] at e
    exact (Dump.build_ok e).2.1.symm
  obtain ⟨q, h3, h4, h5⟩ := h2 fullLangDump fullLang_dump (List.replicate 16 255) (gs "USA\t1\tNA\t美国\t1\tNA") 1
    ⟨⟨128 :: List.replicate 15 0, 128 :: List.replicate 15 0⟩, [gs "美国", gs "1", gs "北美洲"]⟩
    (by rw [hv]; exact ⟨.inr rfl, by decide +kernel⟩)
    (.inr ⟨rfl, by show fullLang.ipVersion &&& 2 = 2; decide, fun h => absurd h (by decide +kernel)⟩)
    ⟨List.replicate 16 255, 32, 0, 20, [], rfl, by rw [fullLang_body]; decide +kernel, by decide,
      by rw [fullLang_body]; decide +kernel, by decide +kernel⟩ (by decide +kernel) (by decide +kernel)
  refine ⟨g, q, h1, ?_, ?_, ?_, ?_⟩
  · rw [h3]; exact congrArg (fun n => Res.ok (q, n)) (by decide +kernel)
  · exact (Option.some.inj (h5 0 (gs "country") _ rfl (attr_country q))).symm
  · exact (Option.some.inj (h5 1 (gs "asn") _ rfl (attr_asn q))).symm
  · exact (Option.some.inj (h5 2 (gs "continent") _ rfl (attr_continent q))).symm

end Uip.Ipdb
